import Verif.Spec.Accept
import Verif.Props.Declares

/-!
# Which names are accepted

Reading a tree reports an error exactly when the rules of `Scoped` are broken.
-/

namespace Tiny
open Spec

/-- The action succeeds, with a result as described by `Q`, if `P`, and else reports an error. -/
def Ex {σ α : Type} (x : Act σ α) (f : σ) (P : Prop) (Q : α → σ → Prop) : Prop :=
  match x f with
  | .ok a f' => P ∧ Q a f'
  | .err _ => ¬ P
  | _ => True

section
variable {σ α β : Type} {f : σ}

theorem Ex.bind {x : Act σ α} {g : α → Act σ β} {P P' : Prop} {Q : α → σ → Prop} {R : β → σ → Prop} (hx : Ex x f P Q)
    (hg : P → ∀ a f', Q a f' → Ex (g a) f' P' R) : Ex (x >>= g) f (P ∧ P') R := by
  unfold Ex at hx ⊢
  rw [act_bind]
  cases h : x f with
  | ok a f' =>
    rw [h] at hx
    have := hg hx.1 a f' hx.2
    unfold Ex at this
    simp only
    cases h2 : g a f' with
    | ok b f'' => rw [h2] at this; exact ⟨⟨hx.1, this.1⟩, this.2⟩
    | err f'' => rw [h2] at this; exact fun k => this k.2
    | abort => trivial
    | ub => trivial
    | timeout => trivial
  | err f' => rw [h] at hx; exact fun k => hx k.1
  | abort => trivial
  | ub => trivial
  | timeout => trivial

theorem Ex.imp {x : Act σ α} {P P' : Prop} {Q Q' : α → σ → Prop} (hx : Ex x f P Q) (hp : P ↔ P')
    (hq : P → ∀ a f', Q a f' → Q' a f') : Ex x f P' Q' := by
  unfold Ex at hx ⊢
  cases h : x f with
  | ok a f' => rw [h] at hx; exact ⟨hp.1 hx.1, hq hx.1 _ _ hx.2⟩
  | err f' => rw [h] at hx; exact fun k => hx (hp.2 k)
  | abort => trivial
  | ub => trivial
  | timeout => trivial

/-- A last step which is always taken. -/
theorem Ex.map {x : Act σ α} {g : α → Act σ β} {P : Prop} {Q : α → σ → Prop} {R : β → σ → Prop} (hx : Ex x f P Q)
    (hg : P → ∀ a f', Q a f' → Ex (g a) f' True R) : Ex (x >>= g) f P R :=
  (hx.bind hg).imp (Iff.of_eq (and_true _)) fun _ _ _ h => h

theorem Ex.pure {a : α} {Q : α → σ → Prop} (h : Q a f) : Ex (Pure.pure a) f True Q := ⟨trivial, h⟩

/-- The same condition again. -/
theorem Ex.then {x : Act σ α} {g : α → Act σ β} {P : Prop} {Q : α → σ → Prop} {R : β → σ → Prop} (hx : Ex x f True Q)
    (hg : ∀ a f', Q a f' → Ex (g a) f' P R) : Ex (x >>= g) f P R :=
  (hx.bind fun _ => hg).imp (Iff.of_eq (true_and _)) fun _ _ _ h => h
end

/-! ## Types and expressions -/

theorem ex_type (ty : SType) (f : Front) : Ex (nameType frontOps ty) f (TypeFine ty) fun t f' => Mentions f f' ∧ t = typeMeans ty := by
  unfold Ex TypeFine
  rw [bytes_nameOf]
  have bad : nameType frontOps (nameOf "void", true) f = .err f := by
    have : getTagFromName (nameOf "void") f = .ok .void f := rfl
    have this : frontOps.named (nameOf "void") f = .ok .void f := this
    unfold nameType
    rw [act_bind, this]
    rfl
  cases h : nameType frontOps ty f with
  | ok t f' =>
    refine ⟨fun e => ?_, mentions_type h⟩
    rw [e, bad] at h
    cases h
  | err f' =>
    intro hne
    obtain ⟨t, f'', h'⟩ := type_accepted ty f hne
    rw [h'] at h
    cases h
  | abort => trivial
  | ub => trivial
  | timeout => trivial

theorem ex_quiet {α : Type} {x : Act Front α} {f : Front} (he : ∀ f', x f ≠ .err f') (hm : ∀ a f', x f = .ok a f' → Mentions f f') :
    Ex x f True fun _ f' => Mentions f f' := by
  unfold Ex
  cases h : x f with
  | ok a f' => exact ⟨trivial, hm a f' h⟩
  | err f' => exact absurd h (he f')
  | abort => trivial
  | ub => trivial
  | timeout => trivial

theorem ex_str (s : List UInt8) (f : Front) : Ex (registerString s) f True fun _ f' => Mentions f f' := by
  refine ex_quiet (fun f' h => ?_) fun a f' h => (mentions_str h).1
  unfold registerString at h
  split at h
  · cases h
  · split at h <;> cases h

theorem ex_ref (n : Name) (f : Front) : Ex (referenceVariable n) f True fun _ f' => Mentions f f' := by
  refine ex_quiet (fun f' h => ?_) fun a f' h => mentions_ref h
  unfold referenceVariable at h
  rw [act_bind] at h
  cases hc : currentFunc f with
  | ok fi g =>
    rw [hc] at h
    simp only at h
    cases hl : lookupFunc n fi with
    | some r => rw [hl] at h; cases h
    | none => rw [hl] at h; cases h
  | err g =>
    unfold currentFunc at hc
    split at hc
    · cases hc
    · cases hc
    · split at hc <;> cases hc
  | abort => rw [hc] at h; cases h
  | ub => rw [hc] at h; cases h
  | timeout => rw [hc] at h; cases h

theorem ex_struct (n : Name) (f : Front) : Ex (declareStruct n) f True fun _ f' => Mentions f f' := by
  refine ex_quiet (fun f' h => ?_) fun a f' h => mentions_struct h
  simp only [declareStruct, act_bind, Act.get] at h
  split at h <;> cases h

/-- After a step which only mentions types. -/
theorem Ex.from {α : Type} {x : Act Front α} {f g : Front} {P : Prop} (m : Mentions f g) (h : Ex x g P fun _ f' => Mentions g f') :
    Ex x g P fun _ f' => Mentions f f' := h.imp Iff.rfl fun _ _ _ k => m.trans k

mutual
theorem ex_expr : ∀ (e : SExpr) (f : Front), Ex (nameExpr frontOps e) f (CastsFine e) fun _ f' => Mentions f f'
  | .null, f => by unfold nameExpr; simp only [CastsFine]; exact .pure (.refl _)
  | .bool _, f => by unfold nameExpr; simp only [CastsFine]; exact .pure (.refl _)
  | .int _, f => by unfold nameExpr; simp only [CastsFine]; exact .pure (.refl _)
  | .char _, f => by unfold nameExpr; simp only [CastsFine]; exact .pure (.refl _)
  | .float _, f => by unfold nameExpr; simp only [CastsFine]; exact .pure (.refl _)
  | .str s, f => by unfold nameExpr; simp only [CastsFine]; exact (ex_str s f).map fun _ _ _ m => .pure m
  | .id n _, f => by unfold nameExpr; simp only [CastsFine]; exact (ex_ref n f).map fun _ _ _ m => .pure m
  | .call _ as, f => by unfold nameExpr; simp only [CastsFine]; exact (ex_exprs as f).map fun _ _ _ m => .pure m
  | .paren e, f => by unfold nameExpr; simp only [CastsFine]; exact (ex_expr e f).map fun _ _ _ m => .pure m
  | .un _ e, f => by unfold nameExpr; simp only [CastsFine]; exact (ex_expr e f).map fun _ _ _ m => .pure m
  | .dot e _, f => by unfold nameExpr; simp only [CastsFine]; exact (ex_expr e f).map fun _ _ _ m => .pure m
  | .bin _ l r, f => by
    unfold nameExpr; simp only [CastsFine]
    exact (ex_expr l f).bind fun _ _ _ m => (Ex.from m (ex_expr r _)).map fun _ _ _ m => .pure m
  | .index l r, f => by
    unfold nameExpr; simp only [CastsFine]
    exact (ex_expr l f).bind fun _ _ _ m => (Ex.from m (ex_expr r _)).map fun _ _ _ m => .pure m
  | .ctor n _ as, f => by
    unfold nameExpr; simp only [CastsFine]
    exact (ex_struct n f).then fun _ _ m => (Ex.from m (ex_exprs as _)).map fun _ _ _ m => .pure m
  | .cast e ty, f => by
    unfold nameExpr; simp only [CastsFine]
    refine (ex_expr e f).bind fun _ _ g m => Ex.map (Ex.from m ((ex_type ty g).imp Iff.rfl fun _ _ _ k => k.1)) fun _ _ _ m => .pure m
  | .ite c a b, f => by
    unfold nameExpr; simp only [CastsFine]
    exact (ex_expr c f).bind fun _ _ _ m => Ex.bind (Ex.from m (ex_expr a _)) fun _ _ _ m => (Ex.from m (ex_expr b _)).map fun _ _ _ m => .pure m
theorem ex_exprs : ∀ (es : List SExpr) (f : Front), Ex (nameExprs frontOps es) f (CastsFineL es) fun _ f' => Mentions f f'
  | [], f => by unfold nameExprs; simp only [CastsFineL]; exact .pure (.refl _)
  | e :: es, f => by
    unfold nameExprs; simp only [CastsFineL]
    exact (ex_expr e f).bind fun _ _ _ m => (Ex.from m (ex_exprs es _)).map fun _ _ _ m => .pure m
end

theorem ex_params : ∀ (ps : List (Name × SType)) (f : Front),
    Ex (nameParams frontOps ps) f (∀ p ∈ ps, TypeFine p.2) fun qs f' => Mentions f f' ∧ qs = ps.map fun p => (p.1, typeMeans p.2)
  | [], f => by unfold nameParams; exact (Ex.pure ⟨.refl _, rfl⟩).imp (by simp) fun _ _ _ h => h
  | p :: ps, f => by
    unfold nameParams
    refine Ex.imp (P := TypeFine p.2 ∧ ∀ p ∈ ps, TypeFine p.2) ?_ (by simp) fun _ _ _ h => h
    refine (ex_type p.2 f).bind fun _ t g m => ((ex_params ps g).imp Iff.rfl fun _ _ _ k => (⟨m.1.trans k.1, k.2⟩ : Mentions f _ ∧ _)).map
      fun _ qs g' k => .pure ⟨k.1, ?_⟩
    rw [k.2, m.2]; rfl

theorem ex_ret (r : Option SType) (f : Front) :
    Ex (nameRet frontOps r) f (∀ x, r = some x → TypeFine x) fun q f' => Mentions f f' ∧ q = r.map typeMeans := by
  cases r with
  | none => exact (Ex.pure (f := f) (Q := fun q f' => Mentions f f' ∧ q = none) ⟨.refl _, rfl⟩).imp (by simp) fun _ _ _ h => h
  | some ty =>
    unfold nameRet
    refine Ex.imp (P := TypeFine ty) ?_ (by simp) fun _ _ _ h => h
    exact (ex_type ty f).map fun _ t g m => .pure ⟨m.1, by rw [m.2]; rfl⟩

/-! ## What is known at a point -/

/-- The struct is defined. -/
def DefSt (syms : List Sym) (n : Name) : Prop := ∃ fs, syms.findSome? (·.structInfo n) = some (true, fs)

/-- The open local variables of a function. -/
def openLocals (fi : FuncInfo) : List (Name × Int) := (fi.locals.filter (!·.ended)).map fun v => (v.name, v.scope)

/-- The open local variables. -/
def opens (f : Front) : List (Name × Int) :=
  match f.currFunc with
  | .at i =>
    match f.syms[i]? with
    | some (.func fi) => openLocals fi
    | _ => []
  | _ => []

/-- The current function. -/
def InFunc (f : Front) (φ : FnNames) : Prop :=
  ∃ i fi, f.currFunc = .at i ∧ f.syms[i]? = some (.func fi) ∧ fi.args.map (·.name) = φ.args ∧
    ∃ r, fi.ret = some r ∧ (φ.value = true ↔ r ≠ .void)

/-- The table agrees with what is known. -/
structure Agrees (f : Front) (N : Names) : Prop where
  globals : ∀ n, f.syms.any (·.isVar n) = true ↔ n ∈ N.globals
  structs : ∀ n, DefSt f.syms n ↔ n ∈ N.structs
  blank : Fieldless f
  pos : 0 ≤ f.currScope
  nested : f.currScope = 0 ↔ N.nested = false
  out : N.fn = none → f.currFunc = .none
  inn : ∀ φ, N.fn = some φ → InFunc f φ ∧ ∀ n, n ∈ (opens f).map Prod.fst ↔ n ∈ φ.locals
  lower : ∀ m ∈ opens f, m.2 ≤ f.currScope

/-- What does not change inside a function. -/
def _root_.Tiny.Spec.Names.head (N : Names) : Option (List Name × Bool) := N.fn.map fun φ => (φ.args, φ.value)

/-- After a statement. -/
structure Post (f : Front) (N : Names) (f' : Front) (M : Names) : Prop where
  agree : Agrees f' M
  scope : f'.currScope = f.currScope
  more : ∃ more, (∀ m ∈ more, m.2 = f.currScope) ∧ opens f' = opens f ++ more
  nest : M.nested = N.nested
  head : M.head = N.head

theorem Post.trans {f g h : Front} {N M K : Names} (a : Post f N g M) (b : Post g M h K) : Post f N h K := by
  obtain ⟨l, hl, e⟩ := a.more
  obtain ⟨l', hl', e'⟩ := b.more
  refine ⟨b.agree, b.scope.trans a.scope, ⟨l ++ l', fun m hm => ?_, by rw [e', e, List.append_assoc]⟩, b.nest.trans a.nest, b.head.trans a.head⟩
  rcases List.mem_append.1 hm with hm | hm
  · exact hl m hm
  · rw [hl' m hm, a.scope]

theorem Agrees.post {f : Front} {N : Names} (h : Agrees f N) : Post f N f N := ⟨h, rfl, ⟨[], by simp, by simp⟩, rfl, rfl⟩

/-! ### Changes of the table -/

theorem any_push {f : Front} {C : List Sym} (h : ∀ x ∈ C, ∀ n, x.isVar n = false) (n : Name) : (f.syms ++ C).any (·.isVar n) = f.syms.any (·.isVar n) := by
  rw [List.any_append]
  have : C.any (·.isVar n) = false := by
    rw [List.any_eq_false]
    exact fun x hx => by simp [h x hx n]
  rw [this, Bool.or_false]

theorem defSt_push {l C : List Sym} (h : ∀ x ∈ C, ∀ n fs, x.structInfo n ≠ some (true, fs)) (n : Name) : DefSt (l ++ C) n ↔ DefSt l n := by
  unfold DefSt
  rw [List.findSome?_append]
  cases hl : l.findSome? (·.structInfo n) with
  | some p => simp
  | none =>
    simp only [Option.none_or, reduceCtorEq, exists_false, iff_false, not_exists]
    intro fs hc
    obtain ⟨x, hx, hxe⟩ := List.exists_of_findSome?_eq_some hc
    exact h x hx n fs hxe

theorem opens_push {f : Front} {C : List Sym} {g : Front} (hs : g.syms = f.syms ++ C) (hc : g.currFunc = f.currFunc)
    (hf : ∀ i, f.currFunc = .at i → ∃ fi, f.syms[i]? = some (.func fi)) : opens g = opens f := by
  unfold opens
  rw [hc, hs]
  cases h : f.currFunc with
  | none => rfl
  | dangling => rfl
  | «at» i =>
    obtain ⟨fi, hi⟩ := hf i h
    simp only
    rw [List.getElem?_append_left (List.getElem?_eq_some_iff.1 hi).1]

theorem Agrees.cur {f : Front} {N : Names} (h : Agrees f N) : ∀ i, f.currFunc = .at i → ∃ fi, f.syms[i]? = some (.func fi) := by
  intro i hi
  cases hN : N.fn with
  | none => rw [h.out hN] at hi; cases hi
  | some φ =>
    obtain ⟨j, fi, h1, h2, -⟩ := (h.inn φ hN).1
    rw [h1] at hi
    cases hi
    exact ⟨fi, h2⟩

theorem InFunc.push {f g : Front} {φ : FnNames} (h : InFunc f φ) {C : List Sym} (hs : g.syms = f.syms ++ C) (hc : g.currFunc = f.currFunc) : InFunc g φ := by
  obtain ⟨i, fi, h1, h2, h3⟩ := h
  exact ⟨i, fi, hc.trans h1, by rw [hs, List.getElem?_append_left (List.getElem?_eq_some_iff.1 h2).1, h2], h3⟩

/-- Symbols are added which are neither structs nor global variables or constants. -/
theorem Agrees.push {f g : Front} {N : Names} (h : Agrees f N) {C : List Sym} (hs : g.syms = f.syms ++ C) (hc : g.currFunc = f.currFunc)
    (hk : g.currScope = f.currScope) (hv : ∀ x ∈ C, ∀ n, x.isVar n = false) (hd : ∀ x ∈ C, ∀ n fs, x.structInfo n ≠ some (true, fs))
    (hb : ∀ n fs, Sym.struct n false fs ∈ C → fs = []) : Post f N g N := by
  have ho : opens g = opens f := opens_push hs hc h.cur
  refine ⟨⟨fun n => ?_, fun n => ?_, fun n fs hm => ?_, by rw [hk]; exact h.pos, by rw [hk]; exact h.nested, fun e => hc.trans (h.out e),
    fun φ e => ⟨(h.inn φ e).1.push hs hc, by rw [ho]; exact (h.inn φ e).2⟩, by rw [ho, hk]; exact h.lower⟩, hk, ⟨[], by simp, by simp [ho]⟩, rfl, rfl⟩
  · rw [hs, any_push hv]; exact h.globals n
  · rw [hs, defSt_push hd]; exact h.structs n
  · rw [hs] at hm
    rcases List.mem_append.1 hm with hm | hm
    · exact h.blank n fs hm
    · exact hb n fs hm

theorem Agrees.mentions {f g : Front} {N : Names} (h : Agrees f N) (m : Mentions f g) : Post f N g N := by
  obtain ⟨C, hC, e⟩ := m.syms
  refine h.push e m.cur m.scope (fun x hx n => ?_) (fun x hx n fs => ?_) fun n fs hx => ?_
  · rcases hC x hx with ⟨k, rfl⟩ | ⟨t, rfl⟩ <;> rfl
  · rcases hC x hx with ⟨k, rfl⟩ | ⟨t, rfl⟩
    · simp only [Sym.structInfo]; split <;> simp
    · simp [Sym.structInfo]
  · rcases hC _ hx with ⟨k, e⟩ | ⟨t, e⟩ <;> cases e
    rfl

theorem map_set_same {α β : Type} (p : α → β) {l : List α} {i : Nat} {x y : α} (h : l[i]? = some x) (e : p y = p x) : (l.set i y).map p = l.map p := by
  apply List.ext_getElem?
  intro j
  rw [List.getElem?_map, List.getElem?_map, List.getElem?_set]
  by_cases hij : i = j
  · subst hij
    rw [if_pos rfl, if_pos (List.getElem?_eq_some_iff.1 h).1, h]
    simp [e]
  · rw [if_neg hij]

theorem any_set {l : List Sym} {i : Nat} {x y : Sym} {p : Sym → Bool} (h : l[i]? = some x) (e : p y = p x) : (l.set i y).any p = l.any p := by
  have k : ∀ l : List Sym, l.any p = (l.map p).any id := fun l => by simp [List.any_map]
  rw [k, k l, map_set_same p h e]

theorem findSome_map {α β : Type} (p : α → Option β) (l : List α) : l.findSome? p = (l.map p).findSome? id := by
  induction l with
  | nil => rfl
  | cons a l ih => rw [List.findSome?_cons, List.map_cons, List.findSome?_cons, ih]; rfl

theorem findSome_set {l : List Sym} {i : Nat} {x y : Sym} {β : Type} {p : Sym → Option β} (h : l[i]? = some x) (e : p y = p x) :
    (l.set i y).findSome? p = l.findSome? p := by
  rw [findSome_map, findSome_map p l, map_set_same p h e]

theorem mem_set_func {l : List Sym} {i : Nat} {x : Sym} {fi : FuncInfo} (h : x ∈ l.set i (.func fi)) (hx : ∀ fj, x ≠ .func fj) : x ∈ l := by
  rcases List.mem_or_eq_of_mem_set h with h | h
  · exact h
  · exact absurd h (hx fi)

theorem DefSt.func {l : List Sym} {i : Nat} {fi fj : FuncInfo} (h : l[i]? = some (.func fi)) (n : Name) : DefSt (l.set i (.func fj)) n ↔ DefSt l n := by
  unfold DefSt
  rw [findSome_set (y := .func fj) h rfl]

/-! ### Scopes -/

theorem Agrees.opened {f : Front} {N : Names} (h : Agrees f N) : Agrees { f with currScope := f.currScope + 1 } N.enter where
  globals := h.globals
  structs := h.structs
  blank := h.blank
  pos := by have := h.pos; show 0 ≤ f.currScope + 1; omega
  nested := by
    have := h.pos
    show f.currScope + 1 = 0 ↔ true = false
    simp; omega
  out := h.out
  inn := h.inn
  lower := fun m hm => by
    have := h.lower m hm
    show m.2 ≤ f.currScope + 1
    omega

theorem openLocals_end (fi : FuncInfo) (k : Int) :
    openLocals { fi with locals := fi.locals.map (endScope k) } = (openLocals fi).filter fun m => decide (m.2 ≠ k) := by
  unfold openLocals
  simp only
  induction fi.locals with
  | nil => rfl
  | cons v l ih =>
    rw [List.map_cons]
    by_cases he : v.ended = true
    · have e2 : (endScope k v).ended = true := by unfold endScope; split <;> simp [he]
      rw [List.filter_cons_of_neg (by simp [e2]), List.filter_cons_of_neg (by simp [he])]
      exact ih
    · by_cases hk : v.scope = k
      · have e2 : (endScope k v).ended = true := by unfold endScope; rw [if_pos hk]
        rw [List.filter_cons_of_neg (by simp [e2]), List.filter_cons_of_pos (by simp [he]), List.map_cons, List.filter_cons_of_neg (by simp [hk])]
        exact ih
      · have e2 : endScope k v = v := by unfold endScope; rw [if_neg hk]
        rw [e2, List.filter_cons_of_pos (by simp [he]), List.filter_cons_of_pos (by simp [he]), List.map_cons, List.map_cons,
          List.filter_cons_of_pos (by simp [hk]), ih]

theorem opens_at {f : Front} {i : Nat} {fi : FuncInfo} (h : f.currFunc = .at i) (k : f.syms[i]? = some (.func fi)) : opens f = openLocals fi := by
  unfold opens
  rw [h]
  simp only
  rw [k]

theorem opens_none {f : Front} (h : f.currFunc = .none) : opens f = [] := by unfold opens; rw [h]

/-- A scope ends. -/
theorem ex_close {f g : Front} {N M : Names} (h : Agrees f N) (p : Post { f with currScope := f.currScope + 1 } N.enter g M) :
    Ex closeScope g True fun _ g' => Post f N g' (N.leave M) := by
  have hk : g.currScope = f.currScope + 1 := p.scope
  obtain ⟨more, hm, ho⟩ := p.more
  replace ho : opens g = opens f ++ more := ho
  have hfil : (opens g).filter (fun m => decide (m.2 ≠ g.currScope)) = opens f := by
    rw [ho, List.filter_append, List.filter_eq_self.2, List.filter_eq_nil_iff.2, List.append_nil]
    · intro m hmm
      have : m.2 = f.currScope + 1 := hm m hmm
      rw [hk]; simp [this]
    · intro m hmm
      have := h.lower m hmm
      rw [hk]; simp; omega
  unfold Ex
  cases hM : M.fn with
  | none =>
    have hc := p.agree.out hM
    unfold closeScope
    simp only [act_bind, Act.get]
    rw [hc]
    have hN : N.fn = none := by
      have := p.head
      simp only [Names.head, hM, Option.map_none, Names.enter] at this
      simpa using this.symm
    have hof : opens f = [] := opens_none (h.out hN)
    refine ⟨trivial, ⟨p.agree.globals, p.agree.structs, p.agree.blank, ?_, ?_, fun _ => hc, fun φ e => ?_, ?_⟩, ?_, ⟨[], by simp, ?_⟩, rfl, rfl⟩
    · show 0 ≤ g.currScope - 1
      have := h.pos; omega
    · show g.currScope - 1 = 0 ↔ N.nested = false
      rw [hk, Int.add_sub_cancel]; exact h.nested
    · replace e : N.fn = some φ := e
      rw [hN] at e; cases e
    · have : opens { g with currScope := g.currScope - 1 } = [] := opens_none hc
      rw [this]; simp
    · show g.currScope - 1 = f.currScope
      omega
    · have : opens { g with currScope := g.currScope - 1 } = [] := opens_none hc
      rw [this, hof]; rfl
  | some φ =>
    obtain ⟨⟨i, fi, h1, h2, h3, r, h4, h5⟩, -⟩ := p.agree.inn φ hM
    obtain ⟨ψ, hN, e1, e2⟩ : ∃ ψ, N.fn = some ψ ∧ ψ.args = φ.args ∧ ψ.value = φ.value := by
      have := p.head
      simp only [Names.head, hM, Option.map_some, Names.enter] at this
      cases hN : N.fn with
      | none => rw [hN] at this; cases this
      | some ψ =>
        rw [hN] at this
        simp only [Option.map_some, Option.some.injEq, Prod.mk.injEq] at this
        exact ⟨ψ, rfl, this.1.symm, this.2.symm⟩
    have hi := (List.getElem?_eq_some_iff.1 h2).1
    obtain ⟨fj, hfj⟩ : ∃ fj : FuncInfo, fj = { fi with locals := fi.locals.map (endScope g.currScope) } := ⟨_, rfl⟩
    obtain ⟨g', hg'⟩ : ∃ g' : Front, g' = { g with syms := g.syms.set i (.func fj), currScope := g.currScope - 1 } := ⟨_, rfl⟩
    have hr : closeScope g = .ok () g' := by
      unfold closeScope
      simp only [act_bind, Act.get, h1]
      have : updateFunc (fun fi => { fi with locals := fi.locals.map (endScope g.currScope) }) g = .ok () { g with syms := g.syms.set i (.func fj) } := by
        unfold updateFunc
        rw [h1]
        simp only
        rw [h2, hfj]
      rw [this, hg']
      rfl
    have hg : g'.syms[i]? = some (.func fj) := by rw [hg']; simp [hi]
    have hc' : g'.currFunc = .at i := by rw [hg']; exact h1
    have hs' : g'.currScope = f.currScope := by rw [hg']; show g.currScope - 1 = f.currScope; omega
    have hoo : opens g' = opens f := by
      rw [opens_at hc' hg, hfj, openLocals_end, ← opens_at h1 h2]
      exact hfil
    rw [hr]
    refine ⟨trivial, ⟨fun n => ?_, fun n => ?_, fun n fs hm => ?_, ?_, ?_, fun e => ?_, fun φ' e => ⟨⟨i, _, hc', hg, ?_, r, by rw [hfj]; exact h4, ?_⟩, ?_⟩, ?_⟩, hs', ⟨[], by simp, ?_⟩, rfl, rfl⟩
    · rw [hg']
      show (g.syms.set i _).any _ = true ↔ _
      rw [any_set (y := .func fj) h2 rfl]; exact p.agree.globals n
    · rw [hg']
      show DefSt (g.syms.set i _) n ↔ _
      rw [DefSt.func h2]; exact p.agree.structs n
    · rw [hg'] at hm
      exact p.agree.blank n fs (mem_set_func hm (by simp))
    · rw [hs']; exact h.pos
    · rw [hs']; exact h.nested
    · replace e : N.fn = none := e
      rw [hN] at e; cases e
    · replace e : N.fn = some φ' := e
      rw [hN] at e; cases e
      rw [e1, hfj]; exact h3
    · replace e : N.fn = some φ' := e
      rw [hN] at e; cases e
      rw [e2]; exact h5
    · rw [hoo]
      exact (h.inn φ' e).2
    · rw [hoo, hs']
      exact h.lower
    · rw [hoo, List.append_nil]


/-! ### Variables and constants -/

theorem lookup_none {n : Name} {fi : FuncInfo} : lookupFunc n (some fi) = none ↔ n ∉ (openLocals fi).map Prod.fst ∧ n ∉ fi.args.map (·.name) := by
  have e1 : fi.locals.findIdx? (fun v => !v.ended && v.name == n) = none ↔ n ∉ (openLocals fi).map Prod.fst := by
    rw [List.findIdx?_eq_none_iff]
    unfold openLocals
    simp only [List.map_map, List.mem_map, List.mem_filter, Function.comp_apply, not_exists, not_and]
    constructor
    · rintro h v ⟨hv, he⟩ hn
      have := h v hv
      simp_all
    · intro h v hv
      have := h v
      cases he : v.ended
      · simp only [hv, he, Bool.not_false, and_self, true_imp_iff] at this
        simpa using this
      · simp
  have e2 : (fi.args.findIdx? (fun v => v.name == n)).map SymRef.arg = none ↔ n ∉ fi.args.map (·.name) := by
    rw [Option.map_eq_none_iff, List.findIdx?_eq_none_iff]
    simp
  unfold lookupFunc
  simp only
  cases h : fi.locals.findIdx? (fun v => !v.ended && v.name == n) with
  | some k =>
    simp only [reduceCtorEq, false_iff, not_and]
    intro hn
    rw [e1.2 hn] at h
    cases h
  | none =>
    simp only
    rw [e2]
    exact ⟨fun k => ⟨e1.1 h, k⟩, fun k => k.2⟩

theorem glob_none {f : Front} {N : Names} (h : Agrees f N) (n : Name) : f.syms.findIdx? (·.isVar n) = none ↔ n ∉ N.globals := by
  rw [← h.globals n, List.findIdx?_eq_none_iff, List.any_eq_true]
  simp

theorem ref_spec {f : Front} {N : Names} (h : Agrees f N) (n : Name) : ∃ r, referenceVariable n f = .ok r f ∧ (r = none ↔ N.Unknown n) ∧
    (N.fn = none → (∀ r', r = some r' → ∃ i, r' = .glob i) ∧ (r = none ↔ n ∉ N.globals)) := by
  have hg := glob_none h n
  cases hN : N.fn with
  | none =>
    have hc : currentFunc f = .ok none f := by unfold currentFunc; rw [h.out hN]
    refine ⟨(f.syms.findIdx? (·.isVar n)).map .glob, ?_, ?_, fun _ => ⟨?_, ?_⟩⟩
    · simp only [referenceVariable, act_bind, hc, lookupFunc, Act.get]
      rfl
    · rw [Option.map_eq_none_iff, hg]
      unfold Names.Unknown
      rw [hN]
      simp
    · intro r' hr
      obtain ⟨i, -, e⟩ := Option.map_eq_some_iff.1 hr
      exact ⟨i, e.symm⟩
    · rw [Option.map_eq_none_iff, hg]
  | some φ =>
    obtain ⟨⟨i, fi, h1, h2, h3, -⟩, h4⟩ := h.inn φ hN
    have hc : currentFunc f = .ok (some fi) f := by unfold currentFunc; rw [h1]; simp only; rw [h2]
    have hl := lookup_none (n := n) (fi := fi)
    rw [← opens_at h1 h2, h4 n, h3] at hl
    cases hk : lookupFunc n (some fi) with
    | some r =>
      refine ⟨some r, ?_, ?_, fun e => by cases e⟩
      · simp only [referenceVariable, act_bind, hc, hk]
        rfl
      · simp only [reduceCtorEq, false_iff]
        intro hu
        have := hl.2 (hu.2 φ hN)
        rw [hk] at this
        cases this
    | none =>
      refine ⟨(f.syms.findIdx? (·.isVar n)).map .glob, ?_, ?_, fun e => by cases e⟩
      · simp only [referenceVariable, act_bind, hc, hk, Act.get]
        rfl
      · rw [Option.map_eq_none_iff, hg]
        refine ⟨fun k => ⟨k, fun ψ e => ?_⟩, fun k => k.1⟩
        rw [hN] at e
        cases e
        exact hl.1 hk

/-- A global variable or constant is added. -/
theorem Agrees.pushVar {f g : Front} {N : Names} (h : Agrees f N) {x : Sym} {n : Name} (hs : g.syms = f.syms ++ [x]) (hc : g.currFunc = f.currFunc)
    (hk : g.currScope = f.currScope) (hv : ∀ m, x.isVar m = true ↔ m = n) (hd : ∀ m, x.structInfo m = none) :
    Post f N g { N with globals := n :: N.globals } := by
  have ho : opens g = opens f := opens_push hs hc h.cur
  refine ⟨⟨fun m => ?_, fun m => ?_, fun m fs hm => ?_, by rw [hk]; exact h.pos, by rw [hk]; exact h.nested, fun e => hc.trans (h.out e),
    fun φ e => ⟨(h.inn φ e).1.push hs hc, by rw [ho]; exact (h.inn φ e).2⟩, by rw [ho, hk]; exact h.lower⟩, hk, ⟨[], by simp, by simp [ho]⟩, rfl, rfl⟩
  · rw [hs, List.any_append, Bool.or_eq_true, h.globals m]
    simp only [List.any_cons, List.any_nil, Bool.or_false, hv m, List.mem_cons]
    exact or_comm
  · rw [hs, defSt_push (fun y hy k fs => by simp only [List.mem_singleton] at hy; subst hy; rw [hd]; simp)]; exact h.structs m
  · rw [hs] at hm
    rcases List.mem_append.1 hm with hm | hm
    · exact h.blank m fs hm
    · simp only [List.mem_singleton] at hm
      have := hd m
      rw [← hm] at this
      simp [Sym.structInfo] at this

/-- The current function is changed, but not its arguments and its result. -/
theorem Agrees.setFn {f : Front} {N : Names} (h : Agrees f N) {φ : FnNames} (hN : N.fn = some φ) {i : Nat} {fi fj : FuncInfo} (h1 : f.currFunc = .at i)
    (h2 : f.syms[i]? = some (.func fi)) (ha : fj.args.map (·.name) = fi.args.map (·.name)) (hr : fj.ret = fi.ret) {more : List (Name × Int)}
    (hm : ∀ m ∈ more, m.2 = f.currScope) (ho : openLocals fj = openLocals fi ++ more) {ls : List Name}
    (hl : ∀ n, n ∈ ls ↔ n ∈ φ.locals ∨ n ∈ more.map Prod.fst) :
    Post f N { f with syms := f.syms.set i (.func fj) } { N with fn := some { φ with locals := ls } } := by
  have hi := (List.getElem?_eq_some_iff.1 h2).1
  have hg : ({ f with syms := f.syms.set i (.func fj) } : Front).syms[i]? = some (.func fj) := by simp [hi]
  have hoo : opens { f with syms := f.syms.set i (.func fj) } = opens f ++ more := by
    rw [opens_at (f := { f with syms := f.syms.set i (.func fj) }) h1 hg, ho, ← opens_at h1 h2]
  obtain ⟨⟨j, fk, k1, k2, k3, r, k4, k5⟩, k6⟩ := h.inn φ hN
  rw [h1] at k1
  cases k1
  rw [h2] at k2
  cases k2
  refine ⟨⟨fun n => ?_, fun n => ?_, fun n fs hm => h.blank n fs (mem_set_func hm (by simp)), h.pos, h.nested, (fun e => by cases e),
    fun ψ e => ?_, ?_⟩, rfl, ⟨more, hm, hoo⟩, rfl, ?_⟩
  · show (f.syms.set i _).any _ = true ↔ _
    rw [any_set (y := .func fj) h2 rfl]; exact h.globals n
  · show DefSt (f.syms.set i _) n ↔ _
    rw [DefSt.func h2]; exact h.structs n
  · simp only [Option.some.injEq] at e
    subst e
    refine ⟨⟨i, fj, h1, hg, ha.trans k3, r, hr.trans k4, k5⟩, fun n => ?_⟩
    rw [hoo, List.map_append, List.mem_append, k6 n]
    exact (hl n).symm
  · rw [hoo]
    intro m hmm
    rcases List.mem_append.1 hmm with hmm | hmm
    · exact h.lower m hmm
    · exact Int.le_of_eq (hm m hmm)
  · simp [Names.head, hN]

theorem names_eta {N : Names} {φ : FnNames} (h : N.fn = some φ) : ({ N with fn := some { φ with locals := φ.locals } } : Names) = N := by
  cases N
  simp only at h
  subst h
  rfl

theorem ex_declare {f : Front} {N : Names} (h : Agrees f N) (n : Name) : Ex (declareVar n) f (N.Free n) fun _ f' => Post f N f' (N.var n) := by
  unfold declareVar Ex
  simp only [act_bind, Act.get]
  cases hN : N.fn with
  | none =>
    have hc := h.out hN
    obtain ⟨r, e1, -, e3⟩ := ref_spec h n
    obtain ⟨e3, e4⟩ := e3 hN
    have hf : N.Free n ↔ n ∉ N.globals := by unfold Names.Free; rw [hN]
    have hv : N.var n = { N with globals := n :: N.globals } := by unfold Names.var; rw [hN]
    rw [hc, hv]
    simp only [bne_self_eq_false, Bool.false_eq_true, if_false, act_bind, declareGlobalVar, e1]
    cases r with
    | some r' =>
      obtain ⟨i, rfl⟩ := e3 r' rfl
      show ¬ _
      rw [hf, ← e4]
      simp
    | none => exact ⟨hf.2 (e4.1 rfl), h.pushVar (x := .glob { name := n, idx := f.numGlobalVars }) rfl rfl rfl
        (fun m => by simp only [Sym.isVar, beq_iff_eq]; exact eq_comm) fun m => rfl⟩
  | some φ =>
    obtain ⟨⟨i, fi, h1, h2, h3, h4⟩, h5⟩ := h.inn φ hN
    have hc : currentFunc f = .ok (some fi) f := by unfold currentFunc; rw [h1]; simp only; rw [h2]
    have hf : N.Free n ↔ n ∉ φ.locals := by unfold Names.Free; rw [hN]
    have hv : N.var n = { N with fn := some { φ with locals := n :: φ.locals } } := by unfold Names.var; rw [hN]
    have hne : (f.currFunc != .none) = true := by rw [h1]; rfl
    have hany : fi.locals.any (fun v => !v.ended && v.name == n) = true ↔ n ∈ φ.locals := by
      rw [← h5 n, opens_at h1 h2]
      unfold openLocals
      rw [List.any_eq_true]
      simp only [List.map_map, List.mem_map, List.mem_filter, Function.comp_apply]
      constructor
      · rintro ⟨v, hv, he⟩
        simp only [Bool.and_eq_true, beq_iff_eq] at he
        exact ⟨v, ⟨hv, he.1⟩, he.2⟩
      · rintro ⟨v, ⟨hv, he⟩, hn⟩
        exact ⟨v, hv, by simp [he, hn]⟩
    rw [hv]
    simp only [hne, if_true, act_bind, declareLocal, hc]
    by_cases ha : fi.locals.any (fun v => !v.ended && v.name == n) = true
    · rw [if_pos ha]
      show ¬ _
      rw [hf]
      exact fun k => k (hany.1 ha)
    · rw [if_neg ha]
      have hu : updateFunc (fun fi => { fi with locals := fi.locals ++ [{ name := n, idx := fi.locals.length, scope := f.currScope }] }) f =
          .ok () { f with syms := f.syms.set i (.func { fi with locals := fi.locals ++ [{ name := n, idx := fi.locals.length, scope := f.currScope }] }) } := by
        unfold updateFunc
        rw [h1]
        simp only
        rw [h2]
      simp only [act_bind, Act.get, hu]
      refine ⟨hf.2 fun k => ha (hany.2 k), h.setFn (fj := { fi with locals := fi.locals ++ [{ name := n, idx := fi.locals.length, scope := f.currScope }] })
        hN h1 h2 rfl rfl (more := [(n, f.currScope)]) (by simp) ?_ fun m => ?_⟩
      · unfold openLocals
        rw [List.filter_append, List.map_append]
        rfl
      · simp [or_comm]

theorem ex_setTag {f : Front} {N : Names} (h : Agrees f N) (v : Option SymRef) (t : Tag) : Ex (setVarTag v t) f True fun _ f' => Post f N f' N := by
  have key : ∀ u : FuncInfo → FuncInfo, (∀ fi, (u fi).args.map (·.name) = fi.args.map (·.name) ∧ (u fi).ret = fi.ret ∧ openLocals (u fi) = openLocals fi) →
      Ex (updateFunc u) f True fun _ f' => Post f N f' N := by
    intro u hu
    unfold Ex updateFunc
    cases hc : f.currFunc with
    | none => trivial
    | dangling => trivial
    | «at» i =>
      simp only
      obtain ⟨fi, hi⟩ := h.cur i hc
      rw [hi]
      cases hN : N.fn with
      | none => rw [h.out hN] at hc; cases hc
      | some φ =>
        obtain ⟨a, b, c⟩ := hu fi
        have k := h.setFn hN hc hi a b (more := []) (by simp) (by simpa using c) (ls := φ.locals) (by simp)
        rw [names_eta hN, hc] at k
        exact ⟨trivial, k⟩
  have tagged : ∀ (l : List VarInfo) (k : Nat), ((l.modify k fun v => { v with tag := some t }).map fun v => (v.name, v.ended, v.scope)) =
      l.map fun v => (v.name, v.ended, v.scope) := by
    intro l
    induction l with
    | nil => intro k; simp
    | cons a l ih =>
      intro k
      cases k with
      | zero => simp
      | succ k => simp [ih]
  have open_map : ∀ l : List VarInfo, (l.filter (!·.ended)).map (fun v => (v.name, v.scope)) =
      ((l.map fun v => (v.name, v.ended, v.scope)).filter fun p => !p.2.1).map fun p => (p.1, p.2.2) := by
    intro l
    induction l with
    | nil => rfl
    | cons a l ih =>
      cases he : a.ended <;> simp [he, ih]
  have name_map : ∀ l : List VarInfo, l.map (·.name) = (l.map fun v => (v.name, v.ended, v.scope)).map Prod.fst := by
    intro l; simp
  unfold setVarTag
  cases v with
  | none => trivial
  | some r =>
    cases r with
    | loc k =>
      exact key _ fun fi => ⟨rfl, rfl, by unfold openLocals; simp only; rw [open_map, open_map fi.locals, tagged]⟩
    | arg k =>
      exact key _ fun fi => ⟨by simp only; rw [name_map, name_map fi.args, tagged], rfl, rfl⟩
    | glob i =>
      unfold Ex
      simp only
      cases hi : f.syms[i]? with
      | none => trivial
      | some x =>
        cases x <;> try trivial
        rename_i w
        have hne : ∀ (j : Nat) (fj : FuncInfo), f.syms[j]? = some (.func fj) → j ≠ i := fun j fj hj e => by rw [e, hi] at hj; cases hj
        have get : ∀ (j : Nat) (fj : FuncInfo), f.syms[j]? = some (.func fj) → (f.syms.set i (.glob { w with tag := some t }))[j]? = some (.func fj) := fun j fj hj => by
          rw [List.getElem?_set_ne (fun e => hne j fj hj e.symm)]; exact hj
        have ho : opens { f with syms := f.syms.set i (.glob { w with tag := some t }) } = opens f := by
          unfold opens
          simp only
          cases hc : f.currFunc with
          | none => rfl
          | dangling => rfl
          | «at» j =>
            obtain ⟨fj, hj⟩ := h.cur j hc
            simp only
            rw [get j fj hj, hj]
        refine ⟨trivial, ⟨fun n => ?_, fun n => ?_, fun n fs hm => ?_, h.pos, h.nested, h.out, fun φ e => ?_, ?_⟩, rfl, ⟨[], by simp, by simp [ho]⟩, rfl, rfl⟩
        · show (f.syms.set i _).any _ = true ↔ _
          rw [any_set (y := .glob { w with tag := some t }) hi rfl]; exact h.globals n
        · show DefSt (f.syms.set i _) n ↔ _
          unfold DefSt
          rw [findSome_set (y := .glob { w with tag := some t }) hi rfl]; exact h.structs n
        · rcases List.mem_or_eq_of_mem_set hm with hm | hm
          · exact h.blank n fs hm
          · cases hm
        · obtain ⟨⟨j, fj, k1, k2, k3⟩, k4⟩ := h.inn φ e
          exact ⟨⟨j, fj, k1, get j fj k2, k3⟩, by rw [ho]; exact k4⟩
        · rw [ho]; exact h.lower

theorem ex_const {f : Front} {N : Names} (h : Agrees f N) (n : Name) (t : Tag) (v : ConstVal) :
    Ex (declareConst n t v) f (N.Unknown n) fun _ f' => Post f N f' { N with globals := n :: N.globals } := by
  obtain ⟨r, e1, e2, -⟩ := ref_spec h n
  unfold Ex declareConst
  simp only [act_bind, e1]
  cases r with
  | some r => exact fun k => by cases e2.2 k
  | none => exact ⟨e2.1 rfl, h.pushVar (x := .const n t v) rfl rfl rfl (fun m => by simp only [Sym.isVar, beq_iff_eq]; exact eq_comm) fun m => rfl⟩

/-! ### Functions -/

/-- While the head of a function is read. -/
structure Hdr (g : Front) (N : Names) (k : Int) (a : List Name) (r : Option Tag) : Prop where
  globals : ∀ n, g.syms.any (·.isVar n) = true ↔ n ∈ N.globals
  structs : ∀ n, DefSt g.syms n ↔ n ∈ N.structs
  blank : Fieldless g
  scope : g.currScope = k
  fn : ∃ i fi, g.currFunc = .at i ∧ g.syms[i]? = some (.func fi) ∧ fi.args.map (·.name) = a ∧ fi.locals = [] ∧ fi.ret = r

theorem Hdr.mentions {g g' : Front} {N : Names} {k a r} (h : Hdr g N k a r) (m : Mentions g g') : Hdr g' N k a r := by
  obtain ⟨C, hC, e⟩ := m.syms
  refine ⟨fun n => ?_, fun n => ?_, fun n fs hm => ?_, m.scope.trans h.scope, ?_⟩
  · rw [e, any_push]
    · exact h.globals n
    · intro x hx n
      rcases hC x hx with ⟨k, rfl⟩ | ⟨t, rfl⟩ <;> rfl
  · rw [e, defSt_push]
    · exact h.structs n
    · intro x hx n fs
      rcases hC x hx with ⟨k, rfl⟩ | ⟨t, rfl⟩
      · simp only [Sym.structInfo]; split <;> simp
      · simp [Sym.structInfo]
  · rw [e] at hm
    rcases List.mem_append.1 hm with hm | hm
    · exact h.blank n fs hm
    · rcases hC _ hm with ⟨k, e⟩ | ⟨t, e⟩ <;> cases e
      rfl
  · obtain ⟨i, fi, h1, h2, h3⟩ := h.fn
    exact ⟨i, fi, m.cur.trans h1, by rw [e, List.getElem?_append_left (List.getElem?_eq_some_iff.1 h2).1, h2], h3⟩

theorem Hdr.set {g : Front} {N : Names} {k a r} (h : Hdr g N k a r) {i : Nat} {fi fj : FuncInfo} (h1 : g.currFunc = .at i)
    (h2 : g.syms[i]? = some (.func fi)) (hl : fj.locals = []) : Hdr { g with syms := g.syms.set i (.func fj) } N k (fj.args.map (·.name)) fj.ret := by
  have hi := (List.getElem?_eq_some_iff.1 h2).1
  refine ⟨fun n => ?_, fun n => ?_, fun n fs hm => h.blank n fs (mem_set_func hm (by simp)), h.scope, i, fj, h1, by simp [hi], rfl, hl, rfl⟩
  · show (g.syms.set i _).any _ = true ↔ _
    rw [any_set (y := .func fj) h2 rfl]; exact h.globals n
  · show DefSt (g.syms.set i _) n ↔ _
    rw [DefSt.func h2]; exact h.structs n

theorem ex_args {N : Names} {k : Int} {r : Option Tag} (m : Nat) : ∀ (ps : List (Name × Tag)) {g : Front} {a : List Name}, a.Nodup → Hdr g N k a r →
    Ex (declareArguments m ps) g ((a ++ ps.map Prod.fst).Nodup) fun _ g' => Hdr g' N k (a ++ ps.map Prod.fst) r
  | [], g, a, hn, h => by
    unfold declareArguments
    exact (Ex.pure (f := g) h).imp (by simpa using hn) fun _ _ _ k => by simpa using k
  | p :: ps, g, a, hn, h => by
    unfold declareArguments
    have first : Ex (declareArgument p.1 p.2 m) g (p.1 ∉ a) fun _ g' => Hdr g' N k (a ++ [p.1]) r := by
      obtain ⟨i, fi, h1, h2, h3, h4, h5⟩ := h.fn
      have hc : currentFunc g = .ok (some fi) g := by unfold currentFunc; rw [h1]; simp only; rw [h2]
      unfold Ex declareArgument
      simp only [act_bind, hc]
      have ha : fi.args.any (fun v => v.name == p.1) = true ↔ p.1 ∈ a := by
        rw [← h3, List.any_eq_true]
        simp
      by_cases hp : fi.args.any (fun v => v.name == p.1) = true
      · rw [if_pos hp]
        exact fun k => k (ha.1 hp)
      · rw [if_neg hp]
        have hu : updateFunc (fun fi => { fi with args := fi.args ++ [{ name := p.1, idx := -(m : Int) + fi.args.length, tag := some p.2 }] }) g =
            .ok () { g with syms := g.syms.set i (.func { fi with args := fi.args ++ [{ name := p.1, idx := -(m : Int) + fi.args.length, tag := some p.2 }] }) } := by
          unfold updateFunc
          rw [h1]
          simp only
          rw [h2]
        rw [hu]
        refine ⟨fun k => hp (ha.2 k), ?_⟩
        have k := h.set (fj := { fi with args := fi.args ++ [{ name := p.1, idx := -(m : Int) + fi.args.length, tag := some p.2 }] }) h1 h2 h4
        have e : (fi.args ++ [({ name := p.1, idx := -(m : Int) + fi.args.length, tag := some p.2 } : VarInfo)]).map (fun v => v.name) = a ++ [p.1] := by
          rw [List.map_append, h3]; rfl
        rw [← e, ← h5]
        exact k
    refine (first.bind (P' := ((a ++ [p.1]) ++ ps.map Prod.fst).Nodup) (R := fun _ g' => Hdr g' N k (a ++ (p :: ps).map Prod.fst) r) fun hp _ g' hg => ?_).imp ?_ fun _ _ _ h => h
    · refine (ex_args m ps (by rw [List.nodup_append]; exact ⟨hn, by simp, by rintro x hx y hy rfl; simp only [List.mem_singleton] at hy; exact hp (hy ▸ hx)⟩) hg).imp
        Iff.rfl fun _ _ _ k => by simpa using k
    · rw [List.append_assoc]
      simp only [List.map_cons, List.singleton_append]
      refine ⟨fun k => k.2, fun k => ⟨fun hx => ?_, k⟩⟩
      exact (List.nodup_append.1 k).2.2 _ hx _ (by simp) rfl

theorem ex_noFunc {f : Front} {N : Names} (h : Agrees f N) : Ex (requireFunc false) f (N.fn.isNone = true) fun _ f' => f' = f := by
  unfold Ex requireFunc
  simp only [act_bind, Act.get]
  cases hN : N.fn with
  | none => rw [h.out hN]; exact ⟨rfl, rfl⟩
  | some φ =>
    obtain ⟨⟨i, fi, h1, -⟩, -⟩ := h.inn φ hN
    rw [h1]
    exact fun k => by cases k

theorem ex_inFunc {f : Front} {N : Names} (h : Agrees f N) : Ex (requireFunc true) f (N.fn.isSome = true) fun _ f' => f' = f := by
  unfold Ex requireFunc
  simp only [act_bind, Act.get]
  cases hN : N.fn with
  | none => rw [h.out hN]; exact fun k => by cases k
  | some φ =>
    obtain ⟨⟨i, fi, h1, -⟩, -⟩ := h.inn φ hN
    rw [h1]
    exact ⟨rfl, rfl⟩

theorem ex_valueFunc {f : Front} {N : Names} (h : Agrees f N) {φ : FnNames} (hN : N.fn = some φ) : Ex requireValueFunc f (φ.value = true) fun _ f' => f' = f := by
  obtain ⟨⟨i, fi, h1, h2, -, r, h4, h5⟩, -⟩ := h.inn φ hN
  have hc : currentFunc f = .ok (some fi) f := by unfold currentFunc; rw [h1]; simp only; rw [h2]
  obtain ⟨nm, ix, as, ls, rt⟩ := fi
  simp only at h4
  subst h4
  unfold Ex requireValueFunc
  simp only [act_bind, hc]
  rw [h5]
  cases r <;> first | exact fun k => k rfl | exact ⟨by simp, rfl⟩

theorem ex_topLevel {f : Front} {N : Names} (h : Agrees f N) : Ex requireTopLevel f (N.fn.isNone = true ∧ N.nested = false) fun _ f' => f' = f := by
  unfold Ex requireTopLevel
  simp only [act_bind, Act.get]
  rw [← h.nested]
  cases hN : N.fn with
  | none =>
    rw [h.out hN]
    by_cases hk : f.currScope = 0
    · rw [hk]; exact ⟨⟨rfl, rfl⟩, rfl⟩
    · have : (f.currScope != 0) = true := by simpa using hk
      rw [this]
      exact fun k => hk k.2
  | some φ =>
    obtain ⟨⟨i, fi, h1, -⟩, -⟩ := h.inn φ hN
    rw [h1]
    exact fun k => by cases k.1

theorem ex_setRet {g : Front} {N : Names} {k a} (h : Hdr g N k a none) (t : Tag) :
    Ex (updateFunc fun fi => { fi with ret := some t }) g True fun _ g' => Hdr g' N k a (some t) := by
  obtain ⟨i, fi, h1, h2, h3, h4, h5⟩ := h.fn
  unfold Ex updateFunc
  rw [h1]
  simp only
  rw [h2]
  have k := h.set (fj := { fi with ret := some t }) h1 h2 h4
  rw [h1] at k
  rw [← h3]
  exact ⟨trivial, k⟩

theorem opens_hdr {g : Front} {N : Names} {k a r} (h : Hdr g N k a r) : opens g = [] := by
  obtain ⟨i, fi, h1, h2, h3, h4, h5⟩ := h.fn
  rw [opens_at h1 h2]
  unfold openLocals
  rw [h4]; rfl

theorem Hdr.agrees {g : Front} {N : Names} {k a} {t : Tag} {v : Bool} (h : Hdr g N k a (some t)) (hv : v = true ↔ t ≠ .void) (hk : 0 ≤ k) (hn : k = 0 ↔ N.nested = false) :
    Agrees g { N with fn := some { args := a, value := v } } where
  globals := h.globals
  structs := h.structs
  blank := h.blank
  pos := by rw [h.scope]; exact hk
  nested := by rw [h.scope]; exact hn
  out := fun e => by cases e
  inn := fun φ e => by
    cases e
    refine ⟨?_, fun n => by rw [opens_hdr h]; simp⟩
    obtain ⟨i, fi, h1, h2, h3, h4, h5⟩ := h.fn
    exact ⟨i, fi, h1, h2, h3, t, h5, hv⟩
  lower := by rw [opens_hdr h]; simp

theorem hdr_begin {f : Front} {N : Names} (h : Agrees f N) (hN : N.fn = none) (n : Name) :
    Ex (beginFunc n) f True fun _ g => Hdr g N f.currScope [] none := by
  refine ⟨trivial, ?_⟩
  refine ⟨fun m => ?_, fun m => ?_, fun m fs hm => ?_, rfl, f.syms.length, { name := n, index := f.numFunctions }, rfl, ?_, rfl, rfl, rfl⟩
  · show (f.syms ++ [_]).any _ = true ↔ _
    rw [any_push (by simp [Sym.isVar])]; exact h.globals m
  · show DefSt (f.syms ++ [_]) m ↔ _
    rw [defSt_push (by simp [Sym.structInfo])]; exact h.structs m
  · replace hm : Sym.struct m false fs ∈ f.syms ++ [_] := hm
    simp only [List.mem_append, List.mem_singleton, reduceCtorEq, or_false] at hm
    exact h.blank m fs hm
  · show (f.syms ++ [_])[f.syms.length]? = _
    simp

theorem ex_structStmt {f : Front} {N : Names} (h : Agrees f N) (n : Name) (fs : List (Name × SType)) :
    Ex (nameStmt frontOps (.struct n fs)) f (Scoped N (.struct n fs)) fun _ f' => Post f N f' { N with structs := n :: N.structs } := by
  have hdef : (∀ ms, f.syms.find? (·.isStruct n) ≠ some (.struct n true ms)) ↔ n ∉ N.structs := by
    rw [← h.structs n]
    unfold DefSt
    rw [not_exists]
    refine forall_congr' fun ms => not_congr ⟨fun k => ?_, fun k => ?_⟩
    · obtain ⟨-, A, B, e, hA⟩ := List.find?_eq_some_iff_append.mp k
      rw [e]
      exact split_structInfo (by simpa using hA)
    · obtain ⟨A, B, e, hA⟩ := structInfo_split k
      rw [e, List.find?_append, List.find?_eq_none.2 (by simpa using hA)]
      simp [Sym.isStruct]
  have hfn : f.currFunc = .none ↔ N.fn.isNone = true := by
    cases hN : N.fn with
    | none => rw [h.out hN]; simp
    | some φ =>
      obtain ⟨⟨i, fi, h1, -⟩, -⟩ := h.inn φ hN
      rw [h1]; simp
  have key := c52_struct (n := n) (fs := fs) h.blank
  rw [hdef, hfn] at key
  have hP : Scoped N (.struct n fs) ↔ ∃ x f', nameStmt frontOps (.struct n fs) f = .ok x f' := by
    rw [key]
    unfold Scoped TypeFine
    rw [bytes_nameOf]
  unfold Ex
  cases hr : nameStmt frontOps (.struct n fs) f with
  | err f' =>
    show ¬ _
    rw [hP, hr]
    rintro ⟨x, f', h⟩
    cases h
  | abort => trivial
  | ub => trivial
  | timeout => trivial
  | ok x f' =>
    refine ⟨hP.2 ⟨x, f', hr⟩, ?_⟩
    have hN : N.fn = none := by
      have := (key.1 ⟨x, f', hr⟩).1
      simpa using this
    unfold nameStmt at hr
    obtain ⟨_, f1, h1, hr⟩ := Act.ok_inv hr
    obtain ⟨_, f2, h2, hr⟩ := Act.ok_inv hr
    obtain ⟨_, f3, h3, hr⟩ := Act.ok_inv hr
    obtain ⟨_, f4, h4, hr⟩ := Act.ok_inv hr
    cases hr
    obtain ⟨rfl, hcur⟩ := requireFalse h1
    have h2 : beginStruct n f1 = .ok _ f2 := h2
    unfold beginStruct at h2
    obtain ⟨_, g, hg, h2⟩ := Act.ok_inv h2
    have m := h.mentions (mentions_struct hg)
    refine m.trans ?_
    have hA := m.agree
    clear hfn hdef key hP h1 m
    have hcg := hA.out hN
    simp only [act_bind, Act.get] at h2
    cases hi : g.syms.findSome? (·.structInfo n) with
    | none => rw [hi] at h2; cases h2
    | some p =>
      rw [hi] at h2
      obtain ⟨d, old⟩ := p
      cases d with
      | true => cases h2
      | false =>
        cases h2
        obtain ⟨A, B, e, hAn⟩ := structInfo_split hi
        have : old = [] := hA.blank n old (by rw [e]; simp)
        subst this
        dsimp only at h3
        rw [e, updateStruct_split hAn] at h3
        obtain ⟨C, hC, e3, c1, c2, c3, c4, c5⟩ := fields_add n hAn fs (f := { g with syms := _ }) (old := []) (B := B) rfl (by simp) (by simp) h3
        have h4 : endStruct n f3 = .ok _ f' := h4
        simp only [endStruct, act_bind, Act.get, e3, split_structInfo hAn] at h4
        split at h4
        · cases h4
        · cases h4
          replace c1 : f'.currFunc = g.currFunc := c1
          replace c2 : f'.currScope = g.currScope := c2
          have ho : opens f' = [] := opens_none (c1.trans hcg)
          refine ⟨⟨fun m => ?_, fun m => ?_, fun m ms hm => ?_, by rw [c2]; exact hA.pos, by rw [c2]; exact hA.nested, fun _ => c1.trans hcg, fun φ e => ?_, by rw [ho]; simp⟩,
            c2, ⟨[], by simp, by rw [ho, opens_none hcg]; rfl⟩, rfl, rfl⟩
          · rw [← hA.globals m, e3, e]
            have : C.any (·.isVar m) = false := by
              rw [List.any_eq_false]
              intro x hx
              rcases hC x hx with ⟨k, rfl⟩ | ⟨t, rfl⟩ <;> simp [Sym.isVar]
            have v1 : ∀ d fs, Sym.isVar m (.struct n d fs) = false := fun _ _ => rfl
            rw [List.any_append, List.any_append, List.any_cons, List.any_cons, List.any_append, this, v1, v1, Bool.or_false]
          · rw [List.mem_cons, ← hA.structs m, e3, e]
            rw [show A ++ Sym.struct n true ([] ++ fs.map fun x => (x.1, typeMeans x.2)) :: (B ++ C) =
              (A ++ Sym.struct n true ([] ++ fs.map fun x => (x.1, typeMeans x.2)) :: B) ++ C by simp]
            rw [defSt_push]
            · by_cases hmn : m = n
              · subst hmn
                refine ⟨fun _ => .inl rfl, fun _ => ⟨_, split_structInfo hAn⟩⟩
              · unfold DefSt
                have : (Sym.structInfo m (.struct n true ([] ++ fs.map fun x => (x.1, typeMeans x.2)))) = none := by
                  simp only [Sym.structInfo]; rw [if_neg (fun e => hmn e.symm)]
                have this2 : (Sym.structInfo m (.struct n false [])) = none := by
                  simp only [Sym.structInfo]; rw [if_neg (fun e => hmn e.symm)]
                rw [List.findSome?_append, List.findSome?_append, List.findSome?_cons, List.findSome?_cons, this, this2]
                simp [hmn]
            · intro x hx k fs
              rcases hC x hx with ⟨k, rfl⟩ | ⟨t, rfl⟩
              · simp only [Sym.structInfo]; split <;> simp
              · simp [Sym.structInfo]
          · rw [e3] at hm
            simp only [List.mem_append, List.mem_cons] at hm
            rcases hm with hm | hm | hm | hm
            · exact hA.blank m ms (by rw [e]; simp [hm])
            · cases hm
            · exact hA.blank m ms (by rw [e]; simp [hm])
            · rcases hC _ hm with ⟨k, h⟩ | ⟨t, h⟩
              · cases h; rfl
              · cases h
          · replace e : N.fn = some φ := e
            rw [hN] at e; cases e

/-! ## Statements -/

theorem ex_decl {f : Front} {N : Names} (h : Agrees f N) (op : Tok) (ann : Option SType) (n : Name) (r : SExpr) :
    Ex (nameDecl frontOps op ann n r) f (N.Free n ∧ (∀ x, ann = some x → TypeFine x) ∧ CastsFine r) fun _ f' => Post f N f' (N.var n) := by
  unfold nameDecl
  refine (Ex.then (x := frontOps.ref n) (Q := fun _ g => g = f) ?_ fun _ g e => ?_)
  · obtain ⟨r, e, -⟩ := ref_spec h n
    show Ex (referenceVariable n) f _ _
    unfold Ex
    rw [e]
    exact ⟨trivial, rfl⟩
  · subst e
    refine Ex.bind (x := frontOps.declare n) (ex_declare h n) fun _ v g p => ?_
    cases ann with
    | none =>
      refine (Ex.map (ex_expr r g) fun _ _ _ m => Ex.pure (p.trans (p.agree.mentions m))).imp (by simp) fun _ _ _ k => k
    | some ty =>
      refine Ex.imp (P := TypeFine ty ∧ CastsFine r) ?_ (by simp) fun _ _ _ k => k
      refine (ex_type ty g).bind fun _ t g' m => ?_
      have q := p.trans (p.agree.mentions m.1)
      refine Ex.then (x := frontOps.setTag v t) (ex_setTag q.agree v t) fun _ g2 p2 => ?_
      have q2 := q.trans p2
      exact (ex_expr r g2).map fun _ _ _ m => Ex.pure (q2.trans (q2.agree.mentions m))

theorem ex_expr_lit (r : SExpr) (f : Front) :
    Ex (nameExpr frontOps r) f (CastsFine r) fun x f' => Mentions f f' ∧ (r.lit.isSome = x.lit.isSome) := by
  have h := ex_expr r f
  unfold Ex at h ⊢
  cases hr : nameExpr frontOps r f with
  | ok x f' =>
    rw [hr] at h
    refine ⟨h.1, h.2, ?_⟩
    rcases lit_named r hr with ⟨a, b⟩ | ⟨c, d, a, b, -⟩ <;> rw [a, b] <;> rfl
  | err f' => rw [hr] at h; exact h
  | abort => trivial
  | ub => trivial
  | timeout => trivial

theorem casts_lit {r : SExpr} (h : r.lit.isSome = true) : CastsFine r := by
  cases r <;> first | (simp [CastsFine]; done) | (exfalso; revert h; simp [PExpr.lit])

theorem ex_assign {f : Front} {N : Names} (h : Agrees f N) (op : Tok) (ann : Option SType) (l r : SExpr) :
    Ex (nameStmt frontOps (.assign op ann l r)) f (Scoped N (.assign op ann l r)) fun _ f' => Post f N f' (N.after (.assign op ann l r)) := by
  by_cases hd : ∃ n u, l = .id n u ∧ (ann.isSome = true ∨ op = .declare)
  · obtain ⟨n, u, rfl, hd⟩ := hd
    have e : declaring op ann (.id n u) r = .var n ann := by simp only [declaring]; rw [if_pos hd]
    have e1 : nameStmt frontOps (.assign op ann (.id n u) r) = nameDecl frontOps op ann n r := by
      cases ann with
      | some ty => rw [nameStmt]
      | none =>
        rcases hd with hd | rfl
        · cases hd
        · rw [nameStmt]
    unfold Scoped Names.after
    rw [e, e1]
    exact ex_decl h op ann n r
  · have e1 : nameStmt frontOps (.assign op ann l r) = nameAssign frontOps op l r := by
      rw [nameStmt]
      · rintro ty n u rfl rfl; exact hd ⟨n, u, rfl, .inl rfl⟩
      · rintro n u rfl rfl rfl; exact hd ⟨n, u, rfl, .inr rfl⟩
    unfold Scoped Names.after
    rw [e1]
    unfold nameAssign
    by_cases hc : ∃ n u, l = .id n u ∧ op = .declareConst ∧ r.lit.isSome = true
    · obtain ⟨n, u, rfl, rfl, hl⟩ := hc
      have hna : ¬ (ann.isSome = true ∨ Tok.declareConst = Tok.declare) := fun k => hd ⟨n, u, rfl, k⟩
      have e : declaring .declareConst ann (.id n u) r = .const n := by simp only [declaring, if_neg hna, hl, and_self, if_true]
      rw [e]
      simp only
      refine Ex.then (Ex.imp (ex_expr (.id n u) f) (by simp [CastsFine]) fun _ _ _ k => k) fun _ g m => ?_
      have p := h.mentions m
      refine Ex.then (Ex.imp (ex_expr_lit r g) (by simp [casts_lit hl]) fun _ _ _ k => k) fun x g' m' => ?_
      have p := p.trans (p.agree.mentions m'.1)
      rw [hl] at m'
      cases hx : x.lit with
      | none => rw [hx] at m'; exact absurd m'.2 (by simp)
      | some c =>
        simp only
        exact Ex.map (x := frontOps.const n c) (ex_const p.agree n _ _) fun _ _ _ p2 => Ex.pure (p.trans p2)
    · have e : declaring op ann l r = .nothing := by
        cases l <;> simp only [declaring]
        next n u =>
          rw [if_neg (fun k => hd ⟨n, u, rfl, k⟩), if_neg (fun k => hc ⟨n, u, rfl, k⟩)]
      rw [e]
      simp only
      refine (ex_expr l f).bind fun _ _ g m => ?_
      have p := h.mentions m
      refine (ex_expr_lit r g).map fun _ x g' m' => ?_
      have p := p.trans (p.agree.mentions m'.1)
      split
      · refine absurd ⟨_, _, rfl, rfl, ?_⟩ hc
        rw [m'.2, ‹x.lit = some _›]; rfl
      · exact Ex.pure p

/-- Inside a scope. -/
theorem ex_scope {f : Front} {N M : Names} {P : Prop} {α β : Type} {x : Act Front α} {k : α → β} (h : Agrees f N)
    (hx : Ex x { f with currScope := f.currScope + 1 } P fun _ g => Post { f with currScope := f.currScope + 1 } N.enter g M) :
    Ex (do openScope; let a ← x; closeScope; pure (k a)) f P fun _ f' => Post f N f' (N.leave M) := by
  refine Ex.then (x := openScope) (Q := fun _ g => g = { f with currScope := f.currScope + 1 }) ⟨trivial, rfl⟩ fun _ g e => ?_
  subst e
  exact hx.map fun _ a g p => (ex_close h p).map fun _ _ g' q => Ex.pure q

mutual
/-- **A statement is accepted exactly if it follows the rules.** -/
theorem ex_stmt : ∀ (s : SStmt) {f : Front} {N : Names}, Agrees f N →
    Ex (nameStmt frontOps s) f (Scoped N s) fun _ f' => Post f N f' (N.after s)
  | .node line s, f, N, h => by
    rw [nameStmt, Scoped, Names.after]
    exact (ex_stmt s h).map fun _ _ _ p => Ex.pure p
  | .call n as, f, N, h => by
    unfold nameStmt Scoped Names.after
    exact (ex_exprs as f).map fun _ _ _ m => Ex.pure (h.mentions m)
  | .block ss, f, N, h => by
    rw [nameStmt, Scoped, Names.after]
    exact ex_scope (k := fun ss => PStmt.block ss) h (ex_stmts ss h.opened)
  | .assign op ann l r, f, N, h => ex_assign h op ann l r
  | .proc line n ps r b, f, N, h => by
    rw [nameStmt, Scoped, Names.after]
    refine Ex.bind (x := frontOps.noFunc) (ex_noFunc h) fun hn _ g e => ?_
    subst e
    have hN : N.fn = none := by simpa using hn
    refine Ex.then (x := frontOps.beginFunc n) (hdr_begin h hN n) fun fn g1 p1 => ?_
    refine (ex_params ps g1).bind fun _ qs g2 m2 => ?_
    have p2 := p1.mentions m2.1
    have eq : qs.map Prod.fst = ps.map Prod.fst := by rw [m2.2]; simp
    refine Ex.bind (x := frontOps.params qs) (Q := fun _ g' => Hdr g' N g.currScope (ps.map Prod.fst) none) ?_ fun _ _ g3 p3 => ?_
    · refine (ex_args qs.length qs List.nodup_nil p2).imp (by rw [List.nil_append, eq]) fun _ _ _ k => by rw [List.nil_append, eq] at k; exact k
    refine (ex_ret r g3).bind fun _ q g4 m4 => ?_
    have p4 := p3.mentions m4.1
    refine Ex.then (x := frontOps.setRet q) (ex_setRet p4 (q.getD .void)) fun _ g5 p5 => ?_
    have hv : hasResult r = true ↔ q.getD .void ≠ .void := by rw [m4.2]; unfold hasResult; simp
    have A := p5.agrees (v := hasResult r) hv h.pos h.nested
    refine Ex.then (x := frontOps.openScope) (Q := fun _ g => g = { g5 with currScope := g5.currScope + 1 }) ⟨trivial, rfl⟩ fun _ g6 e6 => ?_
    subst e6
    refine (ex_stmt b (N := N.body ps r) A.opened).map fun _ b' g7 p7 => ?_
    refine Ex.then (x := frontOps.closeScope) (ex_close A p7) fun _ g8 p8 => ?_
    refine Ex.then (x := frontOps.endFunc) (Q := fun _ g' => g' = { g8 with currFunc := .none }) ⟨trivial, rfl⟩ fun _ g9 e9 => ?_
    subst e9
    have hs : g8.currScope = g.currScope := p8.scope.trans p5.scope
    refine Ex.pure ⟨⟨p8.agree.globals, p8.agree.structs, p8.agree.blank, ?_, ?_, fun _ => rfl, fun φ e => ?_, ?_⟩, hs, ⟨[], by simp, ?_⟩, rfl, ?_⟩
    · show 0 ≤ g8.currScope
      rw [hs]; exact h.pos
    · show g8.currScope = 0 ↔ N.nested = false
      rw [hs]; exact h.nested
    · replace e : N.fn = some φ := e
      rw [hN] at e; cases e
    · rw [opens_none rfl]; simp
    · rw [opens_none rfl, opens_none (h.out hN)]; rfl
    · rfl
  | .ifThen c b, f, N, h => by
    rw [nameStmt, Scoped, Names.after]
    refine (ex_expr c f).bind fun _ _ g m => ?_
    have p := h.mentions m
    exact (ex_stmt b p.agree).map fun _ _ _ p2 => Ex.pure (p.trans p2)
  | .ifElse c b a, f, N, h => by
    rw [nameStmt, Scoped, Names.after]
    refine (ex_expr c f).bind fun _ _ g m => ?_
    have p := h.mentions m
    refine (ex_stmt b p.agree).bind fun _ _ g2 p2 => ?_
    have p := p.trans p2
    exact (ex_stmt a p.agree).map fun _ _ _ p2 => Ex.pure (p.trans p2)
  | .while c b, f, N, h => by
    rw [nameStmt, Scoped, Names.after]
    refine (ex_expr c f).bind fun _ c' g m => ?_
    have p := h.mentions m
    exact (ex_scope (k := fun b => PStmt.while c' b) p.agree (ex_stmt b p.agree.opened)).imp Iff.rfl fun _ _ _ q => p.trans q
  | .for i c s b, f, N, h => by
    rw [nameStmt, Scoped, Names.after]
    refine Ex.then (x := frontOps.openScope) (Q := fun _ g => g = { f with currScope := f.currScope + 1 }) ⟨trivial, rfl⟩ fun _ g e => ?_
    subst e
    refine (ex_stmt i h.opened).bind fun _ _ g1 p1 => ?_
    refine (ex_expr c g1).bind fun _ _ g2 m => ?_
    have p := p1.trans (p1.agree.mentions m)
    refine (ex_stmt s p.agree).bind fun _ _ g3 p2 => ?_
    have p := p.trans p2
    refine (ex_stmt b p.agree).map fun _ _ g4 p2 => ?_
    have p := p.trans p2
    exact Ex.map (x := frontOps.closeScope) (ex_close h p) fun _ _ _ q => Ex.pure q
  | .ret none, f, N, h => by
    unfold nameStmt Scoped Names.after
    exact Ex.map (x := frontOps.inFunc) (ex_inFunc h) fun _ _ g e => by subst e; exact Ex.pure h.post
  | .ret (some e), f, N, h => by
    unfold nameStmt Scoped Names.after
    refine Ex.imp (P := N.fn.isSome = true ∧ (∃ φ, N.fn = some φ ∧ φ.value = true) ∧ CastsFine e) ?_ ?_ fun _ _ _ k => k
    · refine Ex.bind (x := frontOps.inFunc) (ex_inFunc h) fun hi _ g e => ?_
      subst e
      obtain ⟨φ, hN⟩ := Option.isSome_iff_exists.1 hi
      refine Ex.bind (x := frontOps.valueFunc) (Ex.imp (ex_valueFunc h hN) (by simp [hN]) fun _ _ _ k => k) fun _ _ g e => ?_
      subst e
      exact (ex_expr _ g).map fun _ _ _ m => Ex.pure (h.mentions m)
    · refine ⟨fun k => k.2, fun k => ⟨?_, k⟩⟩
      obtain ⟨φ, e, -⟩ := k.1
      rw [e]; rfl
  | .brk, f, N, h => by unfold nameStmt Scoped Names.after; exact Ex.pure h.post
  | .cont, f, N, h => by unfold nameStmt Scoped Names.after; exact Ex.pure h.post
  | .use m as a, f, N, h => by
    unfold nameStmt Scoped Names.after
    exact Ex.map (x := frontOps.topLevel) (ex_topLevel h) fun _ _ g e => by subst e; exact Ex.pure h.post
  | .struct n fs, f, N, h => by
    rw [Names.after]
    exact ex_structStmt h n fs
/-- See `ex_stmt`. -/
theorem ex_stmts : ∀ (ss : List SStmt) {f : Front} {N : Names}, Agrees f N →
    Ex (nameStmts frontOps ss) f (ScopedL N ss) fun _ f' => Post f N f' (N.afterL ss)
  | [], f, N, h => by rw [nameStmts, ScopedL, Names.afterL]; exact Ex.pure h.post
  | s :: ss, f, N, h => by
    rw [nameStmts, ScopedL, Names.afterL]
    exact (ex_stmt s h).bind fun _ _ _ p => (ex_stmts ss p.agree).map fun _ _ _ p2 => Ex.pure (p.trans p2)
end

end Tiny
