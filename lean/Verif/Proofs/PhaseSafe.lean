import Verif.Proofs.CompileSafe

/-!
# Compiling does not crash: the phases
-/

namespace Tiny
open Spec

/-- An action does not crash, except that an assertion can fail if `A` and that the result may not be known if `T`. -/
def TS {α : Type} (A T : Prop) (x : Act TState α) (s : TState) (Q : α → TState → Prop) : Prop :=
  match x s with
  | .ok a s' => Q a s'
  | .err _ => True
  | .abort => A
  | .ub => False
  | .timeout => T

section
variable {α β : Type} {A T : Prop}

theorem TS.bind {x : Act TState α} {g : α → Act TState β} {s : TState} {Q : α → TState → Prop} {R : β → TState → Prop}
    (hx : TS A T x s Q) (hg : ∀ a s', Q a s' → TS A T (g a) s' R) : TS A T (x >>= g) s R := by
  unfold TS at hx ⊢
  rw [Act.bind_apply]
  cases h : x s with
  | ok a s' => rw [h] at hx; exact hg a s' hx
  | err s' => trivial
  | abort => rw [h] at hx; exact hx
  | ub => rw [h] at hx; exact hx
  | timeout => rw [h] at hx; exact hx

theorem TS.mono {x : Act TState α} {s : TState} {Q R : α → TState → Prop} (hx : TS A T x s Q) (h : ∀ a s', Q a s' → R a s') : TS A T x s R := by
  unfold TS at hx ⊢
  cases hs : x s with
  | ok a s' => rw [hs] at hx; exact h a s' hx
  | err s' => trivial
  | abort => rw [hs] at hx; exact hx
  | ub => rw [hs] at hx; exact hx
  | timeout => rw [hs] at hx; exact hx

theorem TS.eq {x : Act TState α} {s : TState} {Q : α → TState → Prop} (hx : TS A T x s Q) : TS A T x s fun a s' => Q a s' ∧ x s = .ok a s' := by
  unfold TS at hx ⊢
  cases hs : x s with
  | ok a s' => rw [hs] at hx; exact ⟨hx, rfl⟩
  | err s' => trivial
  | abort => rw [hs] at hx; exact hx
  | ub => rw [hs] at hx; exact hx
  | timeout => rw [hs] at hx; exact hx

theorem ts_front {x : Act Front α} {s : TState} {Q : α → Front → Prop} (h : ActOk x s.front Q) :
    TS A T (onFront x) s fun a s' => Q a s'.front ∧ s' = { s with front := s'.front } ∧ x s.front = .ok a s'.front := by
  unfold TS onFront
  unfold ActOk at h
  cases hx : x s.front with
  | ok a f => rw [hx] at h; exact ⟨h, rfl, rfl⟩
  | err f => trivial
  | abort => rw [hx] at h; exact h.elim
  | ub => rw [hx] at h; exact h
  | timeout => rw [hx] at h; exact h.elim

end

/-! ## Parsing -/

theorem parse_any (n : Nat) {ts : List Tk} {f : Front} (ht : Tail3 ts) (hf : f.currFunc = .none) :
    match parseProgram n ⟨ts, f⟩ with
    | .ok xs q => Literals f (Literal ts) q.st ∧ ∃ ss us nx rest, ts = us ++ nx :: rest ∧ ProgIs ss us nx ∧
        nameStmts frontOps ss f = .ok xs q.st
    | .err _ => True
    | .abort => TooMany f (Literal ts)
    | .ub => False
    | .timeout => True := by
  obtain ⟨N, hN⟩ := safe_parse (frontOps_safe f (Literal ts)) ⟨ht, fun t h k => ⟨t, h, k, rfl⟩⟩ (s := f)
    ⟨⟨Keeps.refl f, by simpa using hf⟩, [], by simp, .nil, by simp⟩
  have hm := ((parseItems_mono frontOps).le (Nat.le_max_left n N)).1 ⟨ts, f⟩
  have h2 := hN (max n N) (Nat.le_max_right n N)
  unfold Safe at h2
  unfold parseProgram
  rcases hm with hm | hm
  · rw [hm]; trivial
  · rw [hm]
    cases hp : parseItems frontOps (max n N) ⟨ts, f⟩ with
    | ok x q =>
      rw [hp] at h2
      obtain ⟨ss, us, nx, rest, s', h1, rfl, h3, h4⟩ := c45_program_sound frontOps hp
      exact ⟨h2.2, ss, us, nx, rest, h1, h3, h4⟩
    | err q => trivial
    | abort => rw [hp] at h2; exact h2
    | ub => rw [hp] at h2; exact h2
    | timeout => rw [hp] at h2; exact h2.elim

/-! ## Macros -/

/-- Its results satisfy `P`. -/
def Yields {σ α : Type} (x : Act σ α) (P : α → Prop) : Prop := ∀ s a s', x s = .ok a s' → P a

theorem Yields.bind {σ α β : Type} {x : Act σ α} {g : α → Act σ β} {P : β → Prop} (h : ∀ a, Yields (g a) P) : Yields (x >>= g) P := by
  intro s b s' e
  obtain ⟨a, s1, -, e⟩ := Act.ok_inv e
  exact h a s1 b s' e

theorem Yields.pure {σ α : Type} {a : α} {P : α → Prop} (h : P a) : Yields (Pure.pure a : Act σ α) P := by
  intro s b s' e
  cases e
  exact h

/-- Neither a `use` nor a line of the source. -/
def Inner (x : CStmt) : Prop := (∀ m args a, x ≠ .use m args a) ∧ ∀ l y, x ≠ .node l y

macro "yields" : tactic => `(tactic| (unfold nameStmt; repeat (first | exact Yields.pure (by simp [Inner]) | refine Yields.bind fun _ => ?_)))

theorem yields_assign (op : Tok) (ann : Option SType) (l r : SExpr) : Yields (nameStmt frontOps (.assign op ann l r)) Inner := by
  have d : ∀ op ann n r, Yields (nameDecl frontOps op ann n r) Inner := by
    intro op ann n r
    unfold nameDecl
    refine .bind fun _ => .bind fun v => ?_
    cases ann with
    | none => exact .bind fun _ => .pure (by simp [Inner])
    | some ty => exact .bind fun _ => .bind fun _ => .bind fun _ => .pure (by simp [Inner])
  have a : ∀ op l r, Yields (nameAssign frontOps op l r) Inner := by
    intro op l r
    unfold nameAssign
    refine .bind fun _ => .bind fun r' => ?_
    split
    · exact .bind fun _ => .pure (by simp [Inner])
    · exact .pure (by simp [Inner])
  by_cases h1 : ∃ n u, l = .id n u ∧ (ann.isSome = true ∨ op = .declare)
  · obtain ⟨n, u, rfl, h1⟩ := h1
    cases ann with
    | some ty => unfold nameStmt; exact d _ _ _ _
    | none =>
      rcases h1 with h1 | rfl
      · cases h1
      · unfold nameStmt; exact d _ _ _ _
  · have e : nameStmt frontOps (.assign op ann l r) = nameAssign frontOps op l r := by
      rw [nameStmt]
      · rintro ty n u rfl rfl; exact h1 ⟨n, u, rfl, .inl rfl⟩
      · rintro n u rfl rfl rfl; exact h1 ⟨n, u, rfl, .inr rfl⟩
    rw [e]
    exact a _ _ _

theorem yields_inner (s : SStmt) : (∃ l y, s = .node l y) ∨ (∃ m args a, s = .use m args a) ∨ Yields (nameStmt frontOps s) Inner := by
  cases s with
  | node l y => exact .inl ⟨l, y, rfl⟩
  | use m args a => exact .inr (.inl ⟨m, args, a, rfl⟩)
  | assign op ann l r => exact .inr (.inr (yields_assign op ann l r))
  | ret e => cases e <;> (refine .inr (.inr ?_); yields)
  | call => refine .inr (.inr ?_); yields
  | block => refine .inr (.inr ?_); yields
  | proc => refine .inr (.inr ?_); yields
  | ifThen => refine .inr (.inr ?_); yields
  | ifElse => refine .inr (.inr ?_); yields
  | «while» => refine .inr (.inr ?_); yields
  | «for» => refine .inr (.inr ?_); yields
  | brk => refine .inr (.inr ?_); yields
  | cont => refine .inr (.inr ?_); yields
  | struct => refine .inr (.inr ?_); yields

/-- Only a `use` is a `use`. -/
theorem use_node {s : SStmt} {f f' : Front} {line m args a} (h : nameStmt frontOps s f = .ok (.node line (.use m args a)) f') :
    s = .node line (.use m args a) := by
  rcases yields_inner s with ⟨l, y, rfl⟩ | ⟨m', args', a', rfl⟩ | k
  · unfold nameStmt at h
    obtain ⟨z, f1, h1, h⟩ := Act.ok_inv h
    cases h
    rcases yields_inner y with ⟨l', y', rfl⟩ | ⟨m', args', a', rfl⟩ | k
    · unfold nameStmt at h1
      obtain ⟨z, f1, -, h1⟩ := Act.ok_inv h1
      cases h1
    · unfold nameStmt at h1
      obtain ⟨_, f1, -, h1⟩ := Act.ok_inv h1
      cases h1
      rfl
    · exact absurd rfl ((k _ _ _ h1).1 m args a)
  · unfold nameStmt at h
    obtain ⟨_, f1, -, h1⟩ := Act.ok_inv h
    cases h1
  · exact absurd rfl ((k _ _ _ h).2 _ _)

theorem use_in : ∀ {ss : List SStmt} {f f' : Front} {xs : List CStmt}, nameStmts frontOps ss f = .ok xs f' →
    ∀ {line m args a}, PStmt.node line (.use m args a) ∈ xs → PStmt.node line (.use m args a) ∈ ss
  | [], f, f', xs, h, line, m, args, a, hm => by cases h; simp at hm
  | s :: ss, f, f', xs, h, line, m, args, a, hm => by
    unfold nameStmts at h
    obtain ⟨y, f1, h1, h⟩ := Act.ok_inv h
    obtain ⟨ys, f2, h2, h⟩ := Act.ok_inv h
    cases h
    rcases List.mem_cons.1 hm with rfl | hm
    · rw [use_node h1]; exact List.mem_cons_self ..
    · exact List.mem_cons_of_mem _ (use_in h2 hm)

/-- After the macros. -/
structure Used (f : Front) (t : TState) : Prop where
  told : Told f t.front
  tables : Tables t.front
  cur : t.front.currFunc = .none
  opens : ∀ (i : Nat) n fs, t.front.syms[i]? = some (.struct n false fs) → f.syms[i]? = some (.struct n false fs)

theorem ts_macros {E : CompileEnv} (hE : MacrosKeep E) {A T : Prop} {f : Front} :
    ∀ (ys : List CStmt), (∀ line m args a, PStmt.node line (.use m args a) ∈ ys → args.length ≤ 128) →
      ∀ t, MacrosFine E ys t → Used f t → TS A T (useMacros E ys) t fun _ t' => Used f t'
  | [], _, t, _, ht => ht
  | y :: ys, hl, t, hB, ht => by
    have ih := ts_macros hE (A := A) (T := T) (f := f) ys fun line m args a hm => hl line m args a (List.mem_cons_of_mem _ hm)
    unfold useMacros
    split
    · next h => cases h
    · next line m args a ss h =>
      cases h
      rw [MacrosFine] at hB
      refine TS.bind (Q := fun _ t' => Used f t' ∧ MacrosFine E ys t') ?_ fun _ t' ht' => ih t' ht'.2 ht'.1
      unfold useMacro
      have hlen := hl line m args a (List.mem_cons_self ..)
      refine TS.bind (x := Act.get) (Q := fun s t' => s = t ∧ t' = t) ⟨rfl, rfl⟩ ?_
      rintro _ _ ⟨rfl, rfl⟩
      split
      · rw [if_neg (by omega)]
        have h1 := hE m args a _ ht.tables ht.cur
        refine TS.bind (Q := fun b t' => b = true → Used f t' ∧ MacrosFine E ys t') ?_ ?_
        · unfold TS
          cases hm : E.macros m args a _ with
          | ok b t' =>
            rw [hm] at h1 hB
            intro hb
            obtain ⟨k1, k2, k3⟩ := hB hb
            exact ⟨⟨ht.told.trans (told_bindings k1), h1.2.2.1, h1.2.2.2, fun i n fs hx => ht.opens i n fs (k2 i n fs hx)⟩, k3⟩
          | err t' => trivial
          | abort => rw [hm] at hB; exact hB.elim
          | ub => rw [hm] at hB; exact hB
          | timeout => rw [hm] at hB; exact hB.elim
        · intro b t' ht'
          cases b with
          | true => exact ht' rfl
          | false => trivial
      · trivial
    · next hne h =>
      cases h
      refine ih t ?_ ht
      rw [MacrosFine] at hB
      · exact hB
      · intro l m args a e
        subst e
        exact hne l m args a rfl

/-! ## The rest -/

theorem like_held {f f' : Front} (h : Like f f') {d : Place} (hd : tagOf f d ≠ none) : tagOf f' d ≠ none := by
  have get : ∀ (i : Nat) x, f.syms[i]? = some x → ∃ y, f'.syms[i]? = some y ∧ y.bare = x.bare := by
    intro i x hx
    have e := congrArg (·[i]?) h.syms
    simp only [List.getElem?_map, hx, Option.map_some] at e
    cases hy : f'.syms[i]? with
    | none => rw [hy] at e; cases e
    | some y => rw [hy] at e; exact ⟨y, rfl, by simpa using e⟩
  rcases tagOf_cases hd with ⟨i, v, h1, h2⟩ | ⟨j, k, fi, v, rfl, h2, h3⟩
  · obtain ⟨c, r⟩ := d
    simp only at h1
    subst h1
    obtain ⟨y, hy, e⟩ := get i _ h2
    cases y <;> simp only [Sym.bare, reduceCtorEq] at e
    simp [tagOf, tagIn, hy, Sym.core]
  · obtain ⟨y, hy, e⟩ := get j _ h2
    cases y <;> simp only [Sym.bare, reduceCtorEq] at e
    rename_i fj
    have el := congrArg List.length (congrArg FuncInfo.locals (Sym.func.inj e))
    simp only [List.length_map] at el
    have hk : k < fj.locals.length := by rw [el]; exact (List.getElem?_eq_some_iff.1 h3).1
    simp [tagOf, tagIn, hy, Sym.core, hk]

/-- After `checkStructs` all structs are defined. -/
theorem defined_all {f0 f1 : Front} {t : TState} (hd : AllDefined f0) (ha : After f0 f1) (u : Used f1 t)
    (hc : ¬ (t.front.slice f0.syms.length f1.syms.length).any Sym.undefinedStruct = true) : AllDefined t.front := by
  intro x hx
  cases hb : x.undefinedStruct with
  | false => rfl
  | true =>
    exfalso
    obtain ⟨i, hi⟩ := List.mem_iff_getElem?.1 hx
    have hx' := hb
    cases x <;> simp only [Sym.undefinedStruct, Bool.false_eq_true, Bool.not_eq_eq_eq_not, Bool.not_true] at hx'
    rename_i n d fs
    subst hx'
    have h1 := u.opens i n fs hi
    by_cases h0 : i < f0.syms.length
    · obtain ⟨y, hy, e⟩ := ha i _ (List.getElem?_eq_getElem h0)
      rw [h1] at hy
      cases hy
      have hd' := hd f0.syms[i] (by simp)
      generalize f0.syms[i] = z at e hd'
      cases z <;> simp only [Evolves, reduceCtorEq, false_and, exists_const, Sym.struct.injEq] at e
      obtain ⟨d', fs', ⟨-, rfl, -⟩, hdd⟩ := e
      simp only [Sym.undefinedStruct, Bool.not_eq_eq_eq_not, Bool.not_false] at hd'
      cases hdd hd'
    · refine hc (List.any_eq_true.2 ⟨_, ?_, hb⟩)
      unfold Front.slice
      rw [List.mem_iff_getElem?]
      refine ⟨i - f0.syms.length, ?_⟩
      have := (List.getElem?_eq_some_iff.1 h1).1
      rw [List.getElem?_drop, List.getElem?_take_of_lt (by omega)]
      rw [show f0.syms.length + (i - f0.syms.length) = i by omega]
      exact hi

theorem sees_fields {f f' : Front} (h : f'.syms = f.syms) (ht : TypesOk f) : SeesFields (globalsOf f') (baseEnv f) where
  same := fun n => by
    unfold globalsOf
    rw [h]
    rfl
  small := fun n fs hs => by
    unfold globalsOf at hs
    rw [h] at hs
    simp only at hs
    cases hx : f.syms.findSome? (·.structInfo n) with
    | none => rw [hx] at hs; cases hs
    | some p =>
      rw [hx] at hs
      obtain ⟨x, hm, e⟩ := List.exists_of_findSome?_eq_some hx
      obtain ⟨d, fs'⟩ := p
      cases d with
      | false => cases hs
      | true =>
        cases hs
        cases x <;> simp only [Sym.structInfo, reduceCtorEq] at e
        split at e
        · cases e
          have := (ht _ hm).2
          simp only [Sym.small] at this
          omega
        · cases e

theorem body_bound {f : Front} (ht : Tables f) {i : Nat} {b} (h : (baseEnv f).body i = some b) : i < f.numFunctions := by
  have h : (tyEnv f).body i = some b := h
  simp only [tyEnv] at h
  cases hx : (f.syms.filterMap funcInfo).find? (·.index = i) with
  | none => rw [hx] at h; cases h
  | some fi =>
    have hm := List.mem_of_find?_eq_some hx
    have hp := List.find?_some hx
    simp only [decide_eq_true_eq] at hp
    obtain ⟨x, hx, e⟩ := List.mem_filterMap.1 hm
    cases x <;> simp only [funcInfo, reduceCtorEq] at e
    cases e
    have := ht.slots.funcBound i (List.mem_filterMap.2 ⟨_, hx, by simp [Sym.funcIdx, hp]⟩)
    exact this

/-- All that is in a table. -/
def factsOf (g : Front) : Facts where
  typ := TagOk g
  str := fun n => ∃ x ∈ g.syms, x.isStruct n = true
  held := fun d => tagOf g d ≠ none
  fn := HasFn g
  var := TypedAt g

theorem of_isStruct {g : Front} {n : Name} (h : ∃ x ∈ g.syms, x.isStruct n = true) : ∃ d fs, Sym.struct n d fs ∈ g.syms := by
  obtain ⟨x, hx, e⟩ := h
  cases x <;> simp only [Sym.isStruct, Bool.false_eq_true] at e
  rename_i m d fs
  have : m = n := by simpa using e
  subst this
  exact ⟨d, fs, hx⟩

/-- But for the structs. -/
def factsMost (f g : Front) : Facts := { factsOf g with str := (factsOf f).str }

theorem base_facts {f0 f1 t : Front} (h0 : AllTyped f0) (a : After f0 f1) (b : Told f1 t) : Base (factsMost f1 t) f0 f1 where
  old := fun d hn hd => b.var _ (a.var (h0 d hn hd))
  typed := fun d hd => b.var _ hd
  held := fun d hd => b.held hd
  typ := fun u hu => b.typ _ hu
  str := fun n hn => hn
  fn := fun i hi => b.fn hi

mutual
theorem okE_made {κ : Facts} {p : Name → Prop} {c : Cur} : ∀ (e : CExpr), OkE { κ with str := p } c e → (∀ n, MakesE n e → p n → κ.str n) → OkE κ c e
  | .id n (some r), h, _ => by simp only [OkE] at h ⊢; exact h
  | .id n none, _, _ => trivial
  | .call _ as, h, k => by simp only [OkE] at h ⊢; exact okEs_made as h fun n hn => k n (by simpa only [MakesE] using hn)
  | .paren e, h, k => by simp only [OkE] at h ⊢; exact okE_made e h fun n hn => k n (by simpa only [MakesE] using hn)
  | .bin op l r, h, k => by
    simp only [OkE] at h ⊢
    exact ⟨h.1, okE_made l h.2.1 fun n hn => k n (by simp only [MakesE]; exact .inl hn), okE_made r h.2.2 fun n hn => k n (by simp only [MakesE]; exact .inr hn)⟩
  | .un op e, h, k => by simp only [OkE] at h ⊢; exact ⟨h.1, okE_made e h.2 fun n hn => k n (by simpa only [MakesE] using hn)⟩
  | .dot l _, h, k => by simp only [OkE] at h ⊢; exact okE_made l h fun n hn => k n (by simpa only [MakesE] using hn)
  | .index a i, h, k => by
    simp only [OkE] at h ⊢
    exact ⟨okE_made a h.1 fun n hn => k n (by simp only [MakesE]; exact .inl hn), okE_made i h.2 fun n hn => k n (by simp only [MakesE]; exact .inr hn)⟩
  | .ctor m _ as, h, k => by
    simp only [OkE] at h ⊢
    exact ⟨k m (by simp [MakesE]) h.1, okEs_made as h.2 fun n hn => k n (by simp only [MakesE]; exact .inr hn)⟩
  | .cast e t, h, k => by simp only [OkE] at h ⊢; exact ⟨h.1, okE_made e h.2 fun n hn => k n (by simpa only [MakesE] using hn)⟩
  | .ite d a b, h, k => by
    simp only [OkE] at h ⊢
    exact ⟨okE_made d h.1 fun n hn => k n (by simp only [MakesE]; exact .inl hn),
      okE_made a h.2.1 fun n hn => k n (by simp only [MakesE]; exact .inr (.inl hn)),
      okE_made b h.2.2 fun n hn => k n (by simp only [MakesE]; exact .inr (.inr hn))⟩
  | .null, _, _ => trivial
  | .bool _, _, _ => trivial
  | .char _, _, _ => trivial
  | .int _, _, _ => trivial
  | .float _, _, _ => trivial
  | .str _, _, _ => trivial
theorem okEs_made {κ : Facts} {p : Name → Prop} {c : Cur} : ∀ (es : List CExpr), OkEs { κ with str := p } c es → (∀ n, MakesEs n es → p n → κ.str n) → OkEs κ c es
  | [], _, _ => trivial
  | e :: es, h, k => by
    simp only [OkEs] at h ⊢
    exact ⟨okE_made e h.1 fun n hn => k n (by simp only [MakesEs]; exact .inl hn), okEs_made es h.2 fun n hn => k n (by simp only [MakesEs]; exact .inr hn)⟩
end

mutual
theorem okS_made : ∀ {κ : Facts} {p : Name → Prop} {c : Cur} (s : CStmt), OkS { κ with str := p } c s → (∀ n, MakesS n s → p n → κ.str n) → OkS κ c s
  | κ, p, c, .node _ s, h, k => by simp only [OkS] at h ⊢; exact okS_made s h fun n hn => k n (by simpa only [MakesS] using hn)
  | κ, p, c, .call _ as, h, k => by simp only [OkS] at h ⊢; exact okEs_made as h fun n hn => k n (by simpa only [MakesS] using hn)
  | κ, p, c, .block ss, h, k => by simp only [OkS] at h ⊢; exact okSs_made ss h fun n hn => k n (by simpa only [MakesS] using hn)
  | κ, p, c, .assign op _ l r, h, k => by
    simp only [OkS] at h ⊢
    refine ⟨fun hd => ?_, fun h1 h2 => okE_made l (h.2.1 h1 h2) fun n hn => k n (by simp only [MakesS]; exact .inl hn),
      okE_made r h.2.2 fun n hn => k n (by simp only [MakesS]; exact .inr hn)⟩
    have h1 := h.1 hd
    unfold Declarable at h1 ⊢
    exact h1
  | κ, p, c, .proc i _ _ _ b, h, k => by
    simp only [OkS] at h ⊢; exact ⟨h.1, okS_made b h.2 fun n hn => k n (by simpa only [MakesS] using hn)⟩
  | κ, p, c, .ifThen d b, h, k => by
    simp only [OkS] at h ⊢
    exact ⟨okE_made d h.1 fun n hn => k n (by simp only [MakesS]; exact .inl hn), okS_made b h.2 fun n hn => k n (by simp only [MakesS]; exact .inr hn)⟩
  | κ, p, c, .ifElse d b a, h, k => by
    simp only [OkS] at h ⊢
    exact ⟨okE_made d h.1 fun n hn => k n (by simp only [MakesS]; exact .inl hn),
      okS_made b h.2.1 fun n hn => k n (by simp only [MakesS]; exact .inr (.inl hn)),
      okS_made (κ := κ.add (pdecls c b)) a h.2.2 fun n hn => k n (by simp only [MakesS]; exact .inr (.inr hn))⟩
  | κ, p, c, .while d b, h, k => by
    simp only [OkS] at h ⊢
    exact ⟨okE_made d h.1 fun n hn => k n (by simp only [MakesS]; exact .inl hn), okS_made b h.2 fun n hn => k n (by simp only [MakesS]; exact .inr hn)⟩
  | κ, p, c, .for i d s b, h, k => by
    simp only [OkS] at h ⊢
    exact ⟨okS_made i h.1 fun n hn => k n (by simp only [MakesS]; exact .inl hn),
      okE_made (κ := κ.add (pdecls c i)) d h.2.1 fun n hn => k n (by simp only [MakesS]; exact .inr (.inl hn)),
      okS_made (κ := κ.add (pdecls c i)) s h.2.2.1 fun n hn => k n (by simp only [MakesS]; exact .inr (.inr (.inl hn))),
      okS_made (κ := (κ.add (pdecls c i)).add (pdecls c s)) b h.2.2.2 fun n hn => k n (by simp only [MakesS]; exact .inr (.inr (.inr hn)))⟩
  | κ, p, c, .ret none, h, k => by simp only [OkS] at h ⊢; exact ⟨h.1, fun x e => by cases e⟩
  | κ, p, c, .ret (some e), h, k => by
    simp only [OkS] at h ⊢
    exact ⟨h.1, fun x hx => by cases hx; exact okE_made e (h.2 _ rfl) fun n hn => k n (by simpa only [MakesS] using hn)⟩
  | κ, p, c, .brk, h, k => by trivial
  | κ, p, c, .cont, h, k => by trivial
  | κ, p, c, .struct .., h, k => by trivial
  | κ, p, c, .use .., h, k => by trivial
theorem okSs_made : ∀ {κ : Facts} {p : Name → Prop} {c : Cur} (ss : List CStmt), OkSs { κ with str := p } c ss → (∀ n, Makes n ss → p n → κ.str n) → OkSs κ c ss
  | κ, p, c, [], _, _ => trivial
  | κ, p, c, s :: ss, h, k => by
    simp only [OkSs] at h ⊢
    exact ⟨okS_made s h.1 fun n hn => k n (by simp only [Makes]; exact .inl hn),
      okSs_made (κ := κ.add (pdecls c s)) ss h.2 fun n hn => k n (by simp only [Makes]; exact .inr hn)⟩
end

/-- After the checks and before the code is generated. -/
structure Checkd (f0 : Front) (xs : List CStmt) (t g : Front) (ss : List Stmt) : Prop where
  rest : Rest g
  defined : AllDefined g
  like : Like t g
  resolved : ResolvedS t (.block xs) (.block ss)
  checked : Checked (baseEnv g) none (.block ss)

theorem checks_safe {f0 f1 : Front} {ss : List SStmt} {xs : List CStmt} {t : TState} (r : Rest f0)
    (h : nameStmts frontOps ss f0 = .ok xs f1) (hw : WfSs ss) (hp : Plains ss) (u : Used f1 t) (hd : AllDefined t.front)
    (hm : ∀ k, Makes k xs → (∃ d fs, Sym.struct k d fs ∈ f1.syms) → ∃ d fs, Sym.struct k d fs ∈ t.front.syms) :
    ActOk (resolveSs xs) t.front fun ys g => resolveSs xs t.front = .ok ys g → Checkd f0 xs t.front g ys := by
  have sd := said_stmts ss hw h
  have at' : ArgsTyped f0 := r.tables.args
  have ok := sd.ok at' (.inl r.cur) (factsMost f1 t.front) (base_facts r.typed sd.evo.after u.told)
  rw [r.cur] at ok
  replace ok : OkSs (factsOf t.front) .none xs := okSs_made xs ok fun n hn hp => by
    obtain ⟨d, fs, hx⟩ := hm n hn (of_isStruct hp)
    exact ⟨_, hx, by simp [Sym.isStruct]⟩
  have types : TypesOk t.front := u.told.types (sd.evo.types r.types)
  have good : Good (factsOf t.front) t.front := ⟨u.tables, types, hd, fun _ h => h, fun _ h => h, fun _ h => h, fun _ h => h, fun _ h => h⟩
  have pass : Passed (factsOf t.front) [] .none t.front := ⟨by rw [Facts.add_nil]; exact good, u.cur⟩
  obtain ⟨st, own⟩ := step_stmts ss hp h
  have st' := st
  rw [r.cur] at st'
  have A := act_Ss xs pass ok
  unfold ActOk at A ⊢
  cases hr : resolveSs xs t.front with
  | ok ys g =>
    rw [hr] at A
    intro _
    obtain ⟨gd, gc⟩ := A
    have acc := resolveSs_has xs u.tables own hr
    obtain ⟨-, ck⟩ := checked_piece u.tables u.cur own st'.nodup (fun d hd => tagOf_le u.told.le (st'.untagged d hd)) hr
    refine ⟨⟨gd.tables, gd.types, fun d hn hh => ?_, gc⟩, gd.closed, acc.like, acc.resolved, ck⟩
    have ht : tagOf t.front d ≠ none := like_held acc.like.symm hh
    rcases u.told.vars d hn ht with k | k | k
    · have kv := sd.vars d hn k
      rw [r.cur] at kv
      rcases kv with k | k | k
      · exact gd.var d (.inl (u.told.var _ (sd.evo.after.var (r.typed d hn k))))
      · exact gd.var d (.inr k)
      · exact gd.var d (.inl (u.told.var _ k))
    · simp at k
    · exact gd.var d (.inl k)
  | err g => trivial
  | abort => rw [hr] at A; exact A
  | ub => rw [hr] at A; exact A
  | timeout => rw [hr] at A; exact A

theorem rest_marked {g g' : Front} (r : Rest g) (l : List (Option Nat × VarSym)) (h : g' = { g with syms := g.syms.map (Sym.mark l) }) :
    Rest g' ∧ (AllDefined g → AllDefined g') := by
  have m : Marked g g' := by
    subst h
    unfold Marked
    simp [List.map_map, Function.comp_def, mark_unmarked]
  refine ⟨r.marked m ?_ (by rw [h]; exact r.cur), m.defined⟩
  rw [tables_core]
  have : g'.syms.map Sym.core = g.syms.map Sym.core := by
    subst h
    simp [List.map_map, Function.comp_def, mark_core]
  rw [this]
  subst h
  rw [← tables_core (f := g)]
  exact r.tables

theorem file_safe {A T : Prop} {file : Option Name} {ss : List Stmt} {s : TState} (h : ∀ n, file = some n → n ∉ s.front.strings →
    maxStrings ≤ s.front.strings.length → A) :
    TS A T (fileIndex file ss) s fun _ s' => ∃ f, s' = { s with front := f } ∧ f = { s.front with strings := f.strings } := by
  unfold fileIndex
  cases file with
  | none => exact ⟨s.front, rfl, rfl⟩
  | some n =>
    simp only
    by_cases hn : ss.any isNode = true
    · rw [if_pos hn]
      refine TS.bind (Q := fun _ s' => ∃ f, s' = { s with front := f } ∧ f = { s.front with strings := f.strings }) ?_ fun i s' h' => h'
      unfold TS onFront registerString
      cases hf : s.front.strings.findIdx? (· == n) with
      | some i => exact ⟨s.front, rfl, rfl⟩
      | none =>
        simp only
        by_cases hl : s.front.strings.length < maxStrings
        · rw [if_pos hl]; exact ⟨_, rfl, rfl⟩
        · rw [if_neg hl]
          refine h n rfl (fun hm => ?_) (by omega)
          rw [List.findIdx?_eq_none_iff] at hf
          simpa using hf n hm
    · rw [if_neg hn]; exact ⟨s.front, rfl, rfl⟩

theorem ts_get {A T : Prop} {β : Type} {g : TState → Act TState β} {s : TState} {R : β → TState → Prop} (h : TS A T (g s) s R) : TS A T (Act.get >>= g) s R := h

theorem genSs_block {g : Globals} {F : Nat} {ss : List Stmt} (h : GenS g F (.block ss)) : GenSs g F ss := by
  simpa only [GenS] using h

theorem code_safe {A T : Prop} {s : TState} {i : Option Nat} {g : Globals} {ss : List Stmt} (h : GenSs g s.functionPcs.length ss) :
    TS A T (onCode i (do let _ ← compileSs g ss; genOp .halt)) s fun _ s' => s'.front = s.front := by
  have k : GS s.functionPcs.length True 0 (do let _ ← compileSs g ss; genOp .halt) fun _ _ => True :=
    (gs_Ss g ss h (.inl trivial)).bind fun a n _ _ => gs_op .halt
  have k := k ⟨s.program, s.lines, i, s.functionPcs⟩ rfl (Nat.zero_le _)
  unfold TS onCode
  cases hx : (do let _ ← compileSs g ss; genOp .halt : CG Unit) ⟨s.program, s.lines, i, s.functionPcs⟩ with
  | ok a c => rfl
  | err c => trivial
  | abort => rw [hx] at k; exact k.elim
  | ub => rw [hx] at k; exact k

theorem tooMany_file {f0 f1 : Front} {L : Name → Prop} {n : Name} {strs : List Name} (h : Literals f0 L f1) (e : strs = f1.strings) (hn : n ∉ strs)
    (hl : maxStrings ≤ strs.length) : TooMany f0 fun x => L x ∨ some n = some x := by
  obtain ⟨new, h1, h2, h3⟩ := h
  subst e
  rw [h1] at hn hl
  simp only [List.mem_append, not_or] at hn
  refine ⟨new ++ [n], ?_, ?_, ?_⟩
  · exact List.nodup_append.2 ⟨h2, by simp, by rintro a ha b hb rfl; simp at hb; subst hb; exact hn.2 ha⟩
  · intro x hx
    rcases List.mem_append.1 hx with hx | hx
    · exact ⟨(h3 x hx).1, .inl (h3 x hx).2⟩
    · simp only [List.mem_singleton] at hx
      subst hx
      exact ⟨hn.1, .inr rfl⟩
  · simp only [List.length_append, List.length_singleton] at hl ⊢
    omega

theorem rest_safe {f0 f1 : Front} {ss : List SStmt} {xs : List CStmt} {t : TState} {L : Name → Prop} {T : Prop} (r : Rest f0) (hd : AllDefined f0)
    (h : nameStmts frontOps ss f0 = .ok xs f1) (hw : WfSs ss) (hp : Plains ss) (hneg : ¬ NegateMin ss) (u : Used f1 t)
    (hm : ∀ k, Makes k xs → (∃ d fs, Sym.struct k d fs ∈ f1.syms) → ∃ d fs, Sym.struct k d fs ∈ t.front.syms) (hL : Literals f0 L f1) (file : Option Name) :
    TS (TooMany f0 fun x => L x ∨ file = some x) T (restPhases f0.syms.length f1.syms.length file xs) t fun _ s => Rest s.front ∧ AllDefined s.front := by
  unfold restPhases
  have sd := said_stmts ss hw h
  refine TS.bind (Q := fun _ t' => t' = t ∧ AllDefined t.front) ?_ ?_
  · unfold checkStructs
    refine ts_get ?_
    by_cases hc : (t.front.slice f0.syms.length f1.syms.length).any Sym.undefinedStruct = true
    · rw [if_pos hc]; trivial
    · rw [if_neg hc]; exact ⟨rfl, defined_all hd sd.evo.after u hc⟩
  rintro _ _ ⟨e0, hd'⟩
  rw [e0]; clear e0
  refine TS.bind (Q := fun _ s => Rest s.front ∧ AllDefined s.front) ?_ ?_
  · unfold compileTree
    refine TS.bind (x := dropHalt) (Q := fun _ s => s.front = t.front) rfl ?_
    intro _ s1 e1
    have A := checks_safe r h hw hp u hd' hm
    rw [← e1] at A
    refine TS.bind (ts_front A) ?_
    rintro ys s2 ⟨A2, -, A3⟩
    have ck := A2 A3
    refine TS.bind (x := reallocTables) (Q := fun _ s => s.front = s2.front ∧ s2.front.numFunctions ≤ s.functionPcs.length) ⟨rfl, ?_⟩ ?_
    · simp only [List.length_append, List.length_replicate]; omega
    rintro _ s3 ⟨e3, hF⟩
    refine TS.bind (file_safe (fun n hn hm hl => ?_)) ?_
    · subst hn
      refine tooMany_file hL ?_ hm hl
      rw [e3, ← u.told.strings, ← e1]
      exact (congrArg Front.strings ck.like).symm
    rintro i _ ⟨f, rfl, e4⟩
    refine ts_get ?_
    have es : f.syms = s2.front.syms := by rw [e4, ← e3]
    have gen : GenSs (globalsOf f) s3.functionPcs.length ys := by
      refine genSs_block (gen_checked ck.resolved (sees_fields es ck.rest.types) (fun i b hb => ?_) ck.checked ?_)
      · have := body_bound ck.rest.tables hb
        omega
      · intro hx
        simp only [NegatesMin] at hx
        exact hneg (neg_stmts ss h hx)
    refine TS.bind (code_safe (s := { s3 with front := f }) gen) ?_
    intro _ s5 e5
    show Rest s5.front ∧ AllDefined s5.front
    rw [e5]
    have er : f = { s2.front with strings := f.strings } := by rw [e4, e3]
    have rr := ck.rest
    refine ⟨⟨?_, ?_, ?_, ?_⟩, ?_⟩
    · simp only; rw [er, tables_core]; exact (tables_core (f := s2.front)).1 rr.tables
    · simp only; rw [er]; exact rr.types
    · simp only; rw [er]; exact rr.typed
    · simp only; rw [er]; exact rr.cur
    · simp only; rw [er]; exact ck.defined
  · intro ys s1 hs
    refine TS.bind (x := markAll ys) (Q := fun _ s => Rest s.front ∧ AllDefined s.front) ?_ ?_
    · have := rest_marked hs.1 (assignedL none ys) rfl
      exact ⟨this.1, this.2 hs.2⟩
    · intro _ s2 hs
      unfold checkInitialized
      refine ts_get ?_
      split
      · trivial
      · exact hs

/-! ## A compilation -/

/-- **All phases.** -/
theorem phases_safe {E : CompileEnv} (hE : MacrosKeep E) {ts : List Tk} (ht : Tail3 ts) (hn : NotCrashing ts)
    {s : TState} (hB : ∀ n xs q, parseProgram n ⟨ts, s.front⟩ = .ok xs q → MacrosFine E xs { s with front := q.st } ∧
      ∀ t, useMacros E xs { s with front := q.st } = .ok () t → ∀ k, Makes k xs →
        (∃ d fs, Sym.struct k d fs ∈ q.st.syms) → ∃ d fs, Sym.struct k d fs ∈ t.front.syms) (r : Rest s.front) (hd : AllDefined s.front) (file : Option Name) :
    TS (TooMany s.front fun x => Literal ts x ∨ file = some x) (parseProgram E.fuel ⟨ts, s.front⟩ = .timeout) (compilePhases E file ts) s
      fun _ s' => Rest s'.front ∧ AllDefined s'.front := by
  unfold compilePhases
  refine ts_get ?_
  have P := parse_any E.fuel ht r.cur
  refine TS.bind (Q := fun xs s' => ∃ q, s' = { s with front := q.st } ∧ parseProgram E.fuel ⟨ts, s.front⟩ = .ok xs q ∧
    Literals s.front (Literal ts) q.st ∧ ∃ ss us nx rest, ts = us ++ nx :: rest ∧ ProgIs ss us nx ∧
        nameStmts frontOps ss s.front = .ok xs q.st) ?_ ?_
  · unfold TS parseTokens
    cases hp : parseProgram E.fuel ⟨ts, s.front⟩ with
    | ok xs q => rw [hp] at P; exact ⟨q, rfl, rfl, P⟩
    | err q => trivial
    | abort =>
      rw [hp] at P
      obtain ⟨new, h1, h2, h3⟩ := P
      exact ⟨new, h1, fun x hx => ⟨(h2 x hx).1, .inl (h2 x hx).2⟩, h3⟩
    | ub => rw [hp] at P; exact P
    | timeout => rfl
  rintro xs _ ⟨q, rfl, hp, hL, ss, us, nx, rest, e, hg, hs⟩
  have hc := hn ss us nx rest e hg
  simp only [Crashing, not_or] at hc
  obtain ⟨c1, c2, c3⟩ := hc
  have pp := parse_parsed ht r.tables r.cur hp
  refine ts_get ?_
  refine TS.bind (TS.eq (ts_macros hE (f := q.st) xs (fun line m args a hm => ?_) _ (hB _ xs q hp).1 ⟨.refl _, pp.tables, pp.cur, fun _ _ _ h => h⟩)) ?_
  · refine Nat.le_of_not_lt fun hl => c3 ⟨line, m, args, a, use_in hs hm, hl⟩
  · rintro _ t ⟨ht', he⟩
    exact rest_safe r hd hs (wf_prog hg c1) (plain_prog hg) c2 ht' ((hB _ xs q hp).2 t he) hL file

/-- A compilation. -/
theorem tokens_safe {E : CompileEnv} (hE : MacrosKeep E) {ts : List Tk} (ht : Tail3 ts) (hn : NotCrashing ts)
    {s : TState} (hB : UsesFine E ts s) (r : Rest s.front) (hd : AllDefined s.front) (hs : s.nest < maxNest) (file : Option Name) :
    match compileTokens E file ts s with
    | .ok b s' => b = true → Rest s'.front ∧ AllDefined s'.front
    | .err _ => False
    | .abort => TooMany s.front fun x => Literal ts x ∨ file = some x
    | .ub => False
    | .timeout => parseProgram E.fuel ⟨ts, s.front⟩ = .timeout := by
  have P := phases_safe hE ht hn hB (s := { s with nest := s.nest + 1 }) r hd file
  unfold compileTokens
  rw [if_pos hs]
  unfold TS at P
  cases hp : compilePhases E file ts { s with nest := s.nest + 1 } with
  | ok _ s' => rw [hp] at P; exact fun _ => P
  | err s' => exact fun h => by cases h
  | abort => rw [hp] at P; exact P
  | ub => rw [hp] at P; exact P
  | timeout => rw [hp] at P; exact P

theorem told_string {f f' : Front} {x : Name} {i : Nat} (h : registerString x f = .ok i f') : f' = { f with strings := f'.strings } := by
  unfold registerString at h
  split at h
  · cases h; rfl
  · split at h
    · cases h; rfl
    · cases h

/-- **Between the calls of the host.** -/
theorem clean_rest {s : TState} (h : Clean s) : Rest s.front := by
  induction h with
  | new => exact ⟨⟨⟨by simp, by simp, by simp, by simp, by simp, by simp, by simp, by simp⟩, by simp, by simp, by simp⟩, by simp [TypesOk],
      fun d _ hd => by
        exfalso; apply hd
        obtain ⟨c, r⟩ := d
        cases r <;> cases c <;> simp [tagOf, tagIn], rfl⟩
  | @function s q n ts _ h ih =>
    have k := hosts_sig n ⟨ts, s.front⟩
    rw [h] at k
    obtain ⟨-, -, -, -, -, k1, k2⟩ := calls_keeps k
    exact ih.told (told_sig h) (k1 ih.tables) (k2.trans ih.cur)
  | const _ h ih =>
    have k := hostCall_keeps (.const h)
    exact ih.told (told_const h) (k.tables ih.tables) (k.cur.trans ih.cur)
  | string _ h ih =>
    have k := hostCall_keeps (.string h)
    have e := told_string h
    refine ⟨k.tables ih.tables, ?_, ?_, k.cur.trans ih.cur⟩
    · simp only; rw [e]; exact ih.types
    · simp only; rw [e]; exact ih.typed
  | type _ h ih => exact ih.register h
  | module _ h ih =>
    have k := hostCall_keeps (.module h)
    exact ih.told (told_module h) (k.tables ih.tables) (k.cur.trans ih.cur)
  | @compile E file ts s b s' _ hE ht hd hn h hc ih =>
    obtain ⟨a1, a2, a3, a4, a5⟩ := compile_cases hE ht ih.tables ih.cur h
    cases b with
    | true =>
      have hs : s.nest < maxNest := by
        refine Nat.lt_of_not_le fun hl => ?_
        unfold compileTokens at h
        rw [if_neg (by omega)] at h
        cases h
      have k := tokens_safe hE ht (hn rfl).1 (hn rfl).2 ih (allDefined hd) hs file
      rw [h] at k
      exact (k rfl).1
    | false => exact ih.marked (marked_failed a1 (a5 rfl).1 (allDefined hd)) a3 hc

end Tiny
