import Verif.Proofs.PhaseSafe
import Verif.Proofs.Scoped

/-!
# Which structs are missing

Reading a tree leaves structs which are mentioned but not defined exactly if some type does not exist.
-/

namespace Tiny
open Spec

/-- A type symbol: its name, and for structs whether it is defined. -/
def Sym.ty : Sym → Option (Name × Option Bool)
  | .struct n d _ => some (n, some d)
  | .ftype n => some (n, none)
  | _ => none

/-- The type symbols. -/
def tys (f : Front) : List (Name × Option Bool) := f.syms.filterMap Sym.ty

/-- There is a struct. -/
def StructIn (V : List (Name × Option Bool)) (n : Name) : Prop := ∃ d, (n, some d) ∈ V

/-- There is a type. -/
def TypeAt (V : List (Name × Option Bool)) (n : Name) : Prop := ∃ d, (n, d) ∈ V

theorem StructIn.type {V n} (h : StructIn V n) : TypeAt V n := let ⟨d, h⟩ := h; ⟨_, h⟩

/-- Two structs of one name are both defined. -/
def Apart (x y : Name × Option Bool) : Prop := x.1 = y.1 → x.2.isSome = true → y.2.isSome = true → x.2 = some true ∧ y.2 = some true

/-- What happens to the types when types `T` are written and values of the structs `M` are made. -/
structure Str (T M : Name → Prop) (V V' : List (Name × Option Bool)) : Prop where
  same : ∀ n, (n, none) ∈ V' ↔ (n, none) ∈ V
  mono : ∀ n, StructIn V n → StructIn V' n
  types : ∀ n, T n → (primTag n).isSome = true ∨ TypeAt V' n
  made : ∀ n, M n → StructIn V' n
  orig : ∀ n, (n, some false) ∈ V' → (n, some false) ∈ V ∨ M n ∨ (T n ∧ primTag n = none ∧ ¬ TypeAt V n)
  uniq : V.Pairwise Apart → V'.Pairwise Apart

section
variable {V V' V'' : List (Name × Option Bool)} {T M T' M' : Name → Prop}

theorem Str.type_mono (h : Str T M V V') {n : Name} (k : TypeAt V n) : TypeAt V' n := by
  obtain ⟨d, k⟩ := k
  cases d with
  | none => exact ⟨none, (h.same n).2 k⟩
  | some d => exact (h.mono n ⟨d, k⟩).type

theorem Str.refl (V : List (Name × Option Bool)) : Str (fun _ => False) (fun _ => False) V V where
  same := fun _ => Iff.rfl
  mono := fun _ => id
  types := fun _ h => h.elim
  made := fun _ h => h.elim
  orig := fun _ => .inl
  uniq := id

theorem Str.trans (a : Str T M V V') (b : Str T' M' V' V'') : Str (fun n => T n ∨ T' n) (fun n => M n ∨ M' n) V V'' where
  same := fun n => (b.same n).trans (a.same n)
  mono := fun n h => b.mono n (a.mono n h)
  types := fun n h => by
    rcases h with h | h
    · exact (a.types n h).imp id b.type_mono
    · exact b.types n h
  made := fun n h => h.elim (fun h => b.mono n (a.made n h)) (b.made n)
  orig := fun n h => by
    rcases b.orig n h with h | h | ⟨h1, h2, h3⟩
    · rcases a.orig n h with h | h | ⟨h1, h2, h3⟩
      · exact .inl h
      · exact .inr (.inl (.inl h))
      · exact .inr (.inr ⟨.inl h1, h2, h3⟩)
    · exact .inr (.inl (.inr h))
    · exact .inr (.inr ⟨.inr h1, h2, fun k => h3 (a.type_mono k)⟩)
  uniq := fun h => b.uniq (a.uniq h)

theorem Str.cast (a : Str T M V V') (ht : ∀ n, T' n ↔ T n) (hm : ∀ n, M' n ↔ M n) : Str T' M' V V' where
  same := a.same
  mono := a.mono
  types := fun n h => a.types n ((ht n).1 h)
  made := fun n h => a.made n ((hm n).1 h)
  orig := fun n h => (a.orig n h).imp id (Or.imp (hm n).2 fun k => ⟨(ht n).2 k.1, k.2⟩)
  uniq := a.uniq

/-- First a step which does nothing. -/
theorem Str.after (h : V' = V) (b : Str T M V' V'') : Str T M V V'' := h ▸ b

/-- Then a step which does nothing. -/
theorem Str.before (b : Str T M V V') (h : V'' = V') : Str T M V V'' := h ▸ b

theorem apart_push {n : Name} (h : V.Pairwise Apart) (hn : ¬ StructIn V n) : (V ++ [(n, some false)]).Pairwise Apart := by
  rw [List.pairwise_append]
  refine ⟨h, by simp, fun x hx y hy e h1 h2 => ?_⟩
  simp only [List.mem_singleton] at hy
  subst hy
  obtain ⟨m, d⟩ := x
  cases d with
  | none => cases h1
  | some d => simp only at e; subst e; exact absurd ⟨d, hx⟩ hn

theorem str_push_type {n : Name} (hp : primTag n = none) (hn : ¬ TypeAt V n) : Str (fun m => m = n) (fun _ => False) V (V ++ [(n, some false)]) where
  same := fun m => by simp
  mono := fun m ⟨d, h⟩ => ⟨d, by simp [h]⟩
  types := fun m e => .inr ⟨some false, by simp [e]⟩
  made := fun _ h => h.elim
  orig := fun m h => by
    simp only [List.mem_append, List.mem_singleton, Prod.mk.injEq, and_true] at h
    rcases h with h | h
    · exact .inl h
    · subst h; exact .inr (.inr ⟨rfl, hp, hn⟩)
  uniq := fun h => apart_push h fun k => hn k.type

theorem str_push_made {n : Name} (hn : ¬ StructIn V n) : Str (fun _ => False) (fun m => m = n) V (V ++ [(n, some false)]) where
  same := fun m => by simp
  mono := fun m ⟨d, h⟩ => ⟨d, by simp [h]⟩
  types := fun _ h => h.elim
  made := fun m e => ⟨false, by simp [e]⟩
  orig := fun m h => by
    simp only [List.mem_append, List.mem_singleton, Prod.mk.injEq, and_true] at h
    rcases h with h | h
    · exact .inl h
    · subst h; exact .inr (.inl rfl)
  uniq := fun h => apart_push h hn

theorem str_has_type {n : Name} (h : (primTag n).isSome = true ∨ TypeAt V n) : Str (fun m => m = n) (fun _ => False) V V :=
  { Str.refl V with types := fun m e => by subst e; exact h, orig := fun _ => .inl }

theorem str_has_struct {n : Name} (h : StructIn V n) : Str (fun _ => False) (fun m => m = n) V V :=
  { Str.refl V with made := fun m e => by subst e; exact h, orig := fun _ => .inl }

/-- A struct is defined. -/
theorem str_define {n : Name} {A B : List (Name × Option Bool)} :
    Str (fun _ => False) (fun _ => False) (A ++ (n, some false) :: B) (A ++ (n, some true) :: B) ∧
      ((A ++ (n, some false) :: B).Pairwise Apart → (n, some false) ∉ A ++ (n, some true) :: B) := by
  have key : (A ++ (n, some false) :: B).Pairwise Apart → (∀ d, (n, some d) ∉ A) ∧ ∀ d, (n, some d) ∉ B := by
    intro h
    rw [List.pairwise_append, List.pairwise_cons] at h
    obtain ⟨h1, ⟨h2, h3⟩, h4⟩ := h
    refine ⟨fun d hd => ?_, fun d hd => ?_⟩
    · have := (h4 _ hd (n, some false) (by simp) rfl rfl rfl).2
      cases this
    · have := (h2 _ hd rfl rfl rfl).1
      cases this
  refine ⟨⟨fun m => by simp, fun m ⟨d, h⟩ => ?_, fun _ h => h.elim, fun _ h => h.elim, fun m h => ?_, fun h => ?_⟩, fun h => ?_⟩
  · simp only [List.mem_append, List.mem_cons, Prod.mk.injEq, Option.some.injEq] at h
    rcases h with h | ⟨h, -⟩ | h
    · exact ⟨d, by simp [h]⟩
    · exact ⟨true, by simp [h]⟩
    · exact ⟨d, by simp [h]⟩
  · simp only [List.mem_append, List.mem_cons, Prod.mk.injEq, Option.some.injEq, Bool.false_eq_true, and_false, false_or] at h
    exact .inl (by simp only [List.mem_append, List.mem_cons]; exact h.imp id .inr)
  · obtain ⟨k1, k2⟩ := key h
    rw [List.pairwise_append, List.pairwise_cons] at h ⊢
    obtain ⟨h1, ⟨h2, h3⟩, h4⟩ := h
    refine ⟨h1, ⟨fun y hy e e1 e2 => ?_, h3⟩, fun x hx y hy => ?_⟩
    · obtain ⟨m, d⟩ := y
      simp only at e
      subst e
      cases d with
      | none => cases e2
      | some d => exact absurd hy (k2 d)
    · rcases List.mem_cons.1 hy with rfl | hy
      · intro e e1 e2
        obtain ⟨m, d⟩ := x
        simp only at e
        subst e
        cases d with
        | none => cases e1
        | some d => exact absurd hx (k1 d)
      · exact h4 x hx y (List.mem_cons_of_mem _ hy)
  · obtain ⟨k1, k2⟩ := key h
    simp [k1, k2]
end

/-! ## Actions -/

/-- If the action succeeds, this happens to the types. -/
def Tell {α : Type} (x : Act Front α) (T M : Name → Prop) : Prop := ∀ f a f', x f = .ok a f' → Str T M (tys f) (tys f')

section
variable {α β : Type} {T M T' M' : Name → Prop}

theorem Tell.bind {x : Act Front α} {g : α → Act Front β} (hx : Tell x T M) (hg : ∀ a, Tell (g a) T' M') :
    Tell (x >>= g) (fun n => T n ∨ T' n) (fun n => M n ∨ M' n) := by
  intro f b f' h
  obtain ⟨a, g1, h1, h2⟩ := Act.ok_inv h
  exact (hx _ _ _ h1).trans (hg a _ _ _ h2)

/-- Nothing happens. -/
def Still (x : Act Front α) : Prop := ∀ f a f', x f = .ok a f' → tys f' = tys f

theorem Still.then {x : Act Front α} {g : α → Act Front β} (hx : Still x) (hg : ∀ a, Tell (g a) T M) : Tell (x >>= g) T M := by
  intro f b f' h
  obtain ⟨a, g1, h1, h2⟩ := Act.ok_inv h
  exact .after (hx _ _ _ h1) (hg a _ _ _ h2)

theorem Tell.still {x : Act Front α} {g : α → Act Front β} (hx : Tell x T M) (hg : ∀ a, Still (g a)) : Tell (x >>= g) T M := by
  intro f b f' h
  obtain ⟨a, g1, h1, h2⟩ := Act.ok_inv h
  exact .before (hx _ _ _ h1) (hg a _ _ _ h2)

theorem Still.bind {x : Act Front α} {g : α → Act Front β} (hx : Still x) (hg : ∀ a, Still (g a)) : Still (x >>= g) := by
  intro f b f' h
  obtain ⟨a, g1, h1, h2⟩ := Act.ok_inv h
  exact (hg a _ _ _ h2).trans (hx _ _ _ h1)

theorem Still.pure {a : α} : Still (Pure.pure a : Act Front α) := by
  intro f b f' h; cases h; rfl

theorem Still.tell {x : Act Front α} (h : Still x) : Tell x (fun _ => False) fun _ => False := by
  intro f a f' k
  exact (Str.refl _).before (h _ _ _ k)

theorem Tell.cast {x : Act Front α} (h : Tell x T M) (ht : ∀ n, T' n ↔ T n) (hm : ∀ n, M' n ↔ M n) : Tell x T' M' :=
  fun f a f' k => (h f a f' k).cast ht hm

theorem Still.of_syms {x : Act Front α} (h : ∀ f a f', x f = .ok a f' → f'.syms = f.syms) : Still x := by
  intro f a f' k
  unfold tys
  rw [h _ _ _ k]
end

theorem filterMap_set {l : List Sym} {i : Nat} {x y : Sym} (h : l[i]? = some x) (hx : x.ty = none) (hy : y.ty = none) :
    (l.set i y).filterMap Sym.ty = l.filterMap Sym.ty := by
  induction l generalizing i with
  | nil => rfl
  | cons a l ih =>
    cases i with
    | zero =>
      simp only [List.getElem?_cons_zero, Option.some.injEq] at h
      subst h
      rw [List.set_cons_zero, List.filterMap_cons_none hx, List.filterMap_cons_none hy]
    | succ i =>
      rw [List.set_cons_succ, List.filterMap_cons, List.filterMap_cons, ih (by simpa using h)]

theorem tys_push {f : Front} {x : Sym} (h : x.ty = none) : (f.syms ++ [x]).filterMap Sym.ty = f.syms.filterMap Sym.ty := by
  rw [List.filterMap_append, List.filterMap_cons_none h, List.filterMap_nil, List.append_nil]

theorem still_update (u : FuncInfo → FuncInfo) : Still (updateFunc u) := by
  intro f a f' h
  obtain ⟨i, fi, -, h2, rfl⟩ := updateFunc_inv h
  exact filterMap_set h2 rfl rfl

theorem still_current : Still currentFunc := by
  intro f a f' h
  rw [(currentFunc_inv h).1]

theorem still_ref (n : Name) : Still (referenceVariable n) := by
  intro f a f' h
  rw [referenceVariable_state h]

theorem still_str (s : List UInt8) : Still (registerString s) := by
  intro f a f' h
  unfold registerString at h
  split at h
  · cases h; rfl
  · split at h
    · cases h; rfl
    · cases h

theorem still_get : Still (Act.get (σ := Front)) := by
  intro f a f' h; cases h; rfl

theorem still_modify {u : Front → Front} (h : ∀ f, tys (u f) = tys f) : Still (Act.modify u) := by
  intro f a f' k; cases k; exact h f

theorem still_report {α : Type} : Still (Act.report : Act Front α) := by intro f a f' h; cases h
theorem still_fail {α : Type} : Still (Act.fail : Act Front α) := by intro f a f' h; cases h
theorem still_undef {α : Type} : Still (Act.undef : Act Front α) := by intro f a f' h; cases h

theorem still_push {x : Sym} (h : x.ty = none) : Still (pushSym x) := still_modify fun _ => tys_push h

theorem still_ite {α : Type} {c : Prop} [Decidable c] {x y : Act Front α} (hx : Still x) (hy : Still y) : Still (if c then x else y) := by
  split
  · exact hx
  · exact hy

theorem still_open : Still openScope := still_modify fun _ => rfl

theorem still_close : Still closeScope := by
  unfold closeScope
  refine still_get.bind fun s => ?_
  cases s.currFunc with
  | none => exact still_modify (u := fun f => { f with currScope := f.currScope - 1 }) fun _ => rfl
  | dangling => exact (still_update _).bind fun _ => still_modify (u := fun f => { f with currScope := f.currScope - 1 }) fun _ => rfl
  | «at» i => exact (still_update _).bind fun _ => still_modify (u := fun f => { f with currScope := f.currScope - 1 }) fun _ => rfl

theorem still_require (b : Bool) : Still (requireFunc b) := still_get.bind fun _ => still_ite .pure still_report

theorem still_value : Still requireValueFunc := by
  refine still_current.bind fun o => ?_
  split
  · exact still_report
  · exact .pure
  · exact still_undef

theorem still_top : Still requireTopLevel := still_get.bind fun _ => still_ite still_report .pure

theorem still_begin (n : Name) : Still (beginFunc n) := by
  intro f a f' h
  cases h
  exact tys_push rfl

theorem still_args (m : Nat) : ∀ ps, Still (declareArguments m ps)
  | [] => .pure
  | p :: ps => by
    refine Still.bind ?_ fun _ => still_args m ps
    refine still_current.bind fun o => ?_
    cases o with
    | none => exact still_fail
    | some fi => exact still_ite still_report (still_update _)

theorem still_declare (n : Name) : Still (declareVar n) := by
  unfold declareVar declareLocal declareGlobalVar
  refine still_get.bind fun s => still_ite (Still.bind (still_current.bind fun o => ?_) fun _ => .pure) (Still.bind ((still_ref n).bind fun r => ?_) fun _ => .pure)
  · cases o with
    | none => exact still_fail
    | some fi => exact still_ite still_report (still_get.bind fun _ => (still_update _).bind fun _ => .pure)
  · split
    · exact still_report
    · intro f a f' h
      cases h
      exact tys_push rfl

theorem still_setTag (v : Option SymRef) (t : Tag) : Still (setVarTag v t) := by
  intro f a f' h
  unfold setVarTag at h
  split at h
  · exact still_update _ _ _ _ h
  · exact still_update _ _ _ _ h
  · split at h
    · next hi => cases h; exact filterMap_set hi rfl rfl
    · cases h
  · cases h

theorem still_const (n : Name) (t : Tag) (v : ConstVal) : Still (declareConst n t v) := by
  refine (still_ref n).bind fun r => ?_
  cases r with
  | some r => exact still_report
  | none => exact still_push rfl

theorem mem_tys {f : Front} {p : Name × Option Bool} : p ∈ tys f ↔ ∃ x ∈ f.syms, x.ty = some p := by
  unfold tys; rw [List.mem_filterMap]

theorem tell_made (n : Name) : Tell (declareStruct n) (fun _ => False) fun m => m = n := by
  intro f a f' h
  simp only [declareStruct, act_bind, Act.get] at h
  have key : f.syms.any (·.isStruct n) = true ↔ StructIn (tys f) n := by
    rw [List.any_eq_true]
    constructor
    · rintro ⟨x, hx, k⟩
      cases x <;> simp [Sym.isStruct] at k
      subst k
      exact ⟨_, mem_tys.2 ⟨_, hx, rfl⟩⟩
    · rintro ⟨d, h⟩
      obtain ⟨x, hx, k⟩ := mem_tys.1 h
      cases x <;> simp [Sym.ty] at k
      obtain ⟨rfl, rfl⟩ := k
      exact ⟨_, hx, by simp [Sym.isStruct]⟩
  split at h
  · next hs => cases h; exact str_has_struct (key.1 hs)
  · next hs =>
    cases h
    have : tys { f with syms := f.syms ++ [.struct n false []] } = tys f ++ [(n, some false)] := by
      unfold tys; simp [Sym.ty]
    show Str _ _ (tys f) (tys { f with syms := f.syms ++ [.struct n false []] })
    rw [this]
    exact str_push_made fun k => hs (key.2 k)

theorem still_nullable (t : Tag) : Still (makeNullable t) := by
  unfold makeNullable getOrCreateNullable
  exact still_ite still_report (still_get.bind fun _ => still_ite .pure ((still_push (x := .nullable t) rfl).bind fun _ => .pure))

theorem tell_named (n : Name) : Tell (getTagFromName n) (fun m => m = n) fun _ => False := by
  intro f a f' h
  unfold getTagFromName at h
  cases hp : primTag n with
  | some t =>
    rw [hp] at h
    cases h
    exact str_has_type (.inl (by rw [hp]; rfl))
  | none =>
    rw [hp] at h
    simp only [act_bind, Act.get] at h
    cases hs : f.syms.findSome? (·.asType n) with
    | some t =>
      rw [hs] at h
      cases h
      obtain ⟨x, hx, k⟩ := List.exists_of_findSome?_eq_some hs
      refine str_has_type (.inr ?_)
      cases x <;> simp [Sym.asType] at k
      · obtain ⟨rfl, -⟩ := k
        exact ⟨_, mem_tys.2 ⟨_, hx, rfl⟩⟩
      · obtain ⟨rfl, -⟩ := k
        exact ⟨_, mem_tys.2 ⟨_, hx, rfl⟩⟩
    | none =>
      rw [hs] at h
      cases h
      rw [List.findSome?_eq_none_iff] at hs
      have : tys { f with syms := f.syms ++ [.struct n false []] } = tys f ++ [(n, some false)] := by
        unfold tys; simp [Sym.ty]
      show Str _ _ (tys f) (tys { f with syms := f.syms ++ [.struct n false []] })
      rw [this]
      refine str_push_type hp ?_
      rintro ⟨d, hd⟩
      obtain ⟨x, hx, k⟩ := mem_tys.1 hd
      have := hs x hx
      cases x <;> simp [Sym.ty] at k
      · obtain ⟨rfl, -⟩ := k
        simp [Sym.asType] at this
      · obtain ⟨rfl, -⟩ := k
        simp [Sym.asType] at this

theorem tell_type (t : SType) : Tell (nameType frontOps t) (fun m => t.1 = m) fun _ => False := by
  unfold nameType
  refine Tell.cast (Tell.still (x := frontOps.named t.1) (tell_named t.1) fun s => ?_) (fun n => eq_comm) fun _ => Iff.rfl
  split
  · exact still_nullable _
  · exact .pure

mutual
theorem tell_expr : ∀ e : SExpr, Tell (nameExpr frontOps e) (fun n => TypeInE n e) fun n => MakesE n e
  | .null => by unfold nameExpr; exact Still.pure.tell.cast (by simp [TypeInE]) (by simp [MakesE])
  | .bool _ => by unfold nameExpr; exact Still.pure.tell.cast (by simp [TypeInE]) (by simp [MakesE])
  | .int _ => by unfold nameExpr; exact Still.pure.tell.cast (by simp [TypeInE]) (by simp [MakesE])
  | .char _ => by unfold nameExpr; exact Still.pure.tell.cast (by simp [TypeInE]) (by simp [MakesE])
  | .float _ => by unfold nameExpr; exact Still.pure.tell.cast (by simp [TypeInE]) (by simp [MakesE])
  | .str s => by
    unfold nameExpr
    exact (Still.bind (x := frontOps.str s) (still_str s) fun _ => .pure).tell.cast (by simp [TypeInE]) (by simp [MakesE])
  | .id m _ => by
    unfold nameExpr
    exact (Still.bind (x := frontOps.ref m) (still_ref m) fun _ => .pure).tell.cast (by simp [TypeInE]) (by simp [MakesE])
  | .call _ as => by unfold nameExpr; exact ((tell_exprs as).still fun _ => .pure).cast (by simp [TypeInE]) (by simp [MakesE])
  | .paren e => by unfold nameExpr; exact ((tell_expr e).still fun _ => .pure).cast (by simp [TypeInE]) (by simp [MakesE])
  | .un _ e => by unfold nameExpr; exact ((tell_expr e).still fun _ => .pure).cast (by simp [TypeInE]) (by simp [MakesE])
  | .dot e _ => by unfold nameExpr; exact ((tell_expr e).still fun _ => .pure).cast (by simp [TypeInE]) (by simp [MakesE])
  | .bin _ l r => by
    unfold nameExpr
    exact ((tell_expr l).bind fun _ => (tell_expr r).still fun _ => .pure).cast (by simp [TypeInE]) (by simp [MakesE])
  | .index l r => by
    unfold nameExpr
    exact ((tell_expr l).bind fun _ => (tell_expr r).still fun _ => .pure).cast (by simp [TypeInE]) (by simp [MakesE])
  | .ctor m _ as => by
    unfold nameExpr
    exact (Tell.bind (x := frontOps.struct m) (tell_made m) fun _ => (tell_exprs as).still fun _ => .pure).cast (by simp [TypeInE]) (by simp [MakesE, eq_comm])
  | .cast e t => by
    unfold nameExpr
    exact ((tell_expr e).bind fun _ => (tell_type t).still fun _ => .pure).cast (by simp [TypeInE]) (by simp [MakesE])
  | .ite c a b => by
    unfold nameExpr
    exact ((tell_expr c).bind fun _ => (tell_expr a).bind fun _ => (tell_expr b).still fun _ => .pure).cast (by simp [TypeInE]) (by simp [MakesE])
theorem tell_exprs : ∀ es : List SExpr, Tell (nameExprs frontOps es) (fun n => TypeInEs n es) fun n => MakesEs n es
  | [] => by unfold nameExprs; exact Still.pure.tell.cast (by simp [TypeInEs]) (by simp [MakesEs])
  | e :: es => by
    unfold nameExprs
    exact ((tell_expr e).bind fun _ => (tell_exprs es).still fun _ => .pure).cast (by simp [TypeInEs]) (by simp [MakesEs])
end

theorem tell_params : ∀ ps : List (Name × SType), Tell (nameParams frontOps ps) (fun n => ∃ p ∈ ps, p.2.1 = n) fun _ => False
  | [] => Still.pure.tell.cast (by simp) (by simp)
  | p :: ps => by
    unfold nameParams
    exact ((tell_type p.2).bind fun _ => (tell_params ps).still fun _ => .pure).cast (by simp) (by simp)

theorem tell_ret (r : Option SType) : Tell (nameRet frontOps r) (fun n => ∃ t, r = some t ∧ t.1 = n) fun _ => False := by
  cases r with
  | none => exact Still.pure.tell.cast (by simp) (by simp)
  | some t => exact ((tell_type t).still fun _ => .pure).cast (by simp) (by simp)

theorem tys_updateStruct {n : Name} {d : Bool} {fs gs : List (Name × Tag)} : ∀ {l : List Sym}, l.findSome? (·.structInfo n) = some (d, fs) →
    (updateStruct n (.struct n d gs) l).filterMap Sym.ty = l.filterMap Sym.ty := by
  intro l h
  obtain ⟨A, B, rfl, hA⟩ := structInfo_split h
  rw [updateStruct_split hA]
  simp [Sym.ty]

theorem still_check (n m : Name) : Still (checkField n m) := by
  refine still_get.bind fun s => ?_
  split
  · exact still_ite still_report (still_ite still_report .pure)
  · exact still_undef

theorem still_add (n m : Name) (t : Tag) : Still (addField n m t) := by
  intro f a f' h
  simp only [addField, act_bind, Act.get] at h
  cases hs : f.syms.findSome? (·.structInfo n) with
  | none => rw [hs] at h; cases h
  | some p =>
    rw [hs] at h
    cases h
    exact tys_updateStruct hs

theorem still_end (n : Name) : Still (endStruct n) := by
  refine still_get.bind fun s => ?_
  split
  · exact still_ite still_report .pure
  · exact still_undef

theorem tell_fields (n : Name) : ∀ fs : List (Name × SType), Tell (nameFields frontOps n fs) (fun m => ∃ p ∈ fs, p.2.1 = m) fun _ => False
  | [] => Still.pure.tell.cast (by simp) (by simp)
  | p :: fs => by
    unfold nameFields
    exact (Still.then (x := frontOps.checkField n p.1) (still_check n p.1) fun _ => (tell_type p.2).bind fun t =>
      Still.then (x := frontOps.addField n p.1 t) (still_add n p.1 t) fun _ => (tell_fields n fs).still fun _ => .pure).cast (by simp) (by simp)

/-- The definition of a struct: the struct itself is not missing afterwards. -/
theorem tell_beginStruct (n : Name) {f f' : Front} {u} (h : beginStruct n f = .ok u f') (hu : (tys f).Pairwise Apart) :
    Str (fun _ => False) (fun _ => False) (tys f) (tys f') := by
  unfold beginStruct at h
  obtain ⟨_, g, hg, h⟩ := Act.ok_inv h
  have k := tell_made n _ _ _ hg
  simp only [act_bind, Act.get] at h
  cases hs : g.syms.findSome? (·.structInfo n) with
  | none => rw [hs] at h; cases h
  | some p =>
    obtain ⟨d, fs⟩ := p
    rw [hs] at h
    cases d with
    | true => cases h
    | false =>
      cases h
      obtain ⟨A, B, e, hA⟩ := structInfo_split hs
      have e1 : tys g = A.filterMap Sym.ty ++ (n, some false) :: B.filterMap Sym.ty := by
        unfold tys; rw [e]; simp [Sym.ty]
      have e2 : tys { g with syms := updateStruct n (.struct n true fs) g.syms } = A.filterMap Sym.ty ++ (n, some true) :: B.filterMap Sym.ty := by
        unfold tys
        simp only
        rw [e, updateStruct_split hA]; simp [Sym.ty]
      obtain ⟨k1, k2⟩ := str_define (n := n) (A := A.filterMap Sym.ty) (B := B.filterMap Sym.ty)
      rw [← e1, ← e2] at k1 k2
      have k3 := k.trans k1
      refine ⟨k3.same, k3.mono, fun _ h => h.elim, fun _ h => h.elim, fun m hm => ?_, k3.uniq⟩
      rcases k3.orig m hm with h | h | h
      · exact .inl h
      · simp only [or_false] at h
        subst h
        exact absurd hm (k2 (k.uniq hu))
      · rcases h.1 with h | h <;> exact h.elim

/-! ## Statements -/

/-- If the action succeeds, this happens to the types. -/
def TellU {α : Type} (x : Act Front α) (T M : Name → Prop) : Prop := ∀ f a f', (tys f).Pairwise Apart → x f = .ok a f' → Str T M (tys f) (tys f')

section
variable {α β : Type} {T M T' M' : Name → Prop}

theorem Tell.up {x : Act Front α} (h : Tell x T M) : TellU x T M := fun _ _ _ _ k => h _ _ _ k

theorem TellU.bind {x : Act Front α} {g : α → Act Front β} (hx : TellU x T M) (hg : ∀ a, TellU (g a) T' M') :
    TellU (x >>= g) (fun n => T n ∨ T' n) (fun n => M n ∨ M' n) := by
  intro f b f' hu h
  obtain ⟨a, g1, h1, h2⟩ := Act.ok_inv h
  have k := hx _ _ _ hu h1
  exact k.trans (hg a _ _ _ (k.uniq hu) h2)

theorem Still.thenU {x : Act Front α} {g : α → Act Front β} (hx : Still x) (hg : ∀ a, TellU (g a) T M) : TellU (x >>= g) T M := by
  intro f b f' hu h
  obtain ⟨a, g1, h1, h2⟩ := Act.ok_inv h
  exact .after (hx _ _ _ h1) (hg a _ _ _ (by rw [hx _ _ _ h1]; exact hu) h2)

theorem TellU.still {x : Act Front α} {g : α → Act Front β} (hx : TellU x T M) (hg : ∀ a, Still (g a)) : TellU (x >>= g) T M := by
  intro f b f' hu h
  obtain ⟨a, g1, h1, h2⟩ := Act.ok_inv h
  exact .before (hx _ _ _ hu h1) (hg a _ _ _ h2)

theorem TellU.cast {x : Act Front α} (h : TellU x T M) (ht : ∀ n, T' n ↔ T n) (hm : ∀ n, M' n ↔ M n) : TellU x T' M' :=
  fun f a f' hu k => (h f a f' hu k).cast ht hm
end

theorem tell_assign (op : Tok) (ann : Option SType) (l r : SExpr) :
    Tell (nameStmt frontOps (.assign op ann l r)) (fun n => TypeIn n (.assign op ann l r)) fun n => MakesS (F := Unit) n (.assign op ann l r) := by
  by_cases hd : ∃ n u, l = .id n u ∧ (ann.isSome = true ∨ op = .declare)
  · obtain ⟨n, u, rfl, hd⟩ := hd
    have e1 : nameStmt frontOps (.assign op ann (.id n u) r) = nameDecl frontOps op ann n r := by
      cases ann with
      | some ty => rw [nameStmt]
      | none =>
        rcases hd with hd | rfl
        · cases hd
        · rw [nameStmt]
    rw [e1]
    unfold nameDecl
    refine Still.then (x := frontOps.ref n) (still_ref n) fun _ => Still.then (x := frontOps.declare n) (still_declare n) fun v => ?_
    cases ann with
    | none => exact ((tell_expr r).still fun _ => .pure).cast (by simp [TypeIn, TypeInE]) (by simp [MakesS, MakesE])
    | some ty =>
      exact ((tell_type ty).bind fun t => Still.then (x := frontOps.setTag v t) (still_setTag v t) fun _ => (tell_expr r).still fun _ => .pure).cast
        (by simp [TypeIn, TypeInE]) (by simp [MakesS, MakesE])
  · have e1 : nameStmt frontOps (.assign op ann l r) = nameAssign frontOps op l r := by
      rw [nameStmt]
      · rintro ty n u rfl rfl; exact hd ⟨n, u, rfl, .inl rfl⟩
      · rintro n u rfl rfl rfl; exact hd ⟨n, u, rfl, .inr rfl⟩
    rw [e1]
    unfold nameAssign
    refine Tell.cast ((tell_expr l).bind fun _ => (tell_expr r).still fun r' => ?_) (fun n => ?_) (by simp [MakesS])
    · split
      · exact Still.bind (x := frontOps.const _ _) (still_const _ _ _) fun _ => .pure
      · exact .pure
    · unfold TypeIn
      refine ⟨fun h => h.elim (fun k => ?_) id, .inr⟩
      obtain ⟨m, u, t, rfl, rfl, -⟩ := k
      exact absurd ⟨m, u, rfl, .inl rfl⟩ hd

mutual
theorem tell_stmt : ∀ s : SStmt, TellU (nameStmt frontOps s) (fun n => TypeIn n s) fun n => MakesS n s
  | .node _ s => by unfold nameStmt; exact ((tell_stmt s).still fun _ => .pure).cast (by simp [TypeIn]) (by simp [MakesS])
  | .call _ as => by unfold nameStmt; exact ((tell_exprs as).still fun _ => .pure).up.cast (by simp [TypeIn]) (by simp [MakesS])
  | .block ss => by
    unfold nameStmt
    exact (Still.thenU (x := frontOps.openScope) still_open fun _ => (tell_stmts ss).still fun _ =>
      Still.bind (x := frontOps.closeScope) still_close fun _ => .pure).cast (by simp [TypeIn]) (by simp [MakesS])
  | .assign op ann l r => (tell_assign op ann l r).up
  | .proc _ n ps r b => by
    unfold nameStmt
    exact (Still.thenU (x := frontOps.noFunc) (still_require false) fun _ => Still.thenU (x := frontOps.beginFunc n) (still_begin n) fun _ =>
      (tell_params ps).up.bind fun qs => Still.thenU (x := frontOps.params qs) (still_args _ qs) fun _ => (tell_ret r).up.bind fun q =>
      Still.thenU (x := frontOps.setRet q) (still_update _) fun _ => Still.thenU (x := frontOps.openScope) still_open fun _ =>
      (tell_stmt b).still fun _ => Still.bind (x := frontOps.closeScope) still_close fun _ =>
      Still.bind (x := frontOps.endFunc) (still_modify fun _ => rfl) fun _ => .pure).cast (by simp [TypeIn]) (by simp [MakesS])
  | .ifThen c b => by
    unfold nameStmt
    exact ((tell_expr c).up.bind fun _ => (tell_stmt b).still fun _ => .pure).cast (by simp [TypeIn]) (by simp [MakesS])
  | .ifElse c b a => by
    unfold nameStmt
    exact ((tell_expr c).up.bind fun _ => (tell_stmt b).bind fun _ => (tell_stmt a).still fun _ => .pure).cast (by simp [TypeIn]) (by simp [MakesS])
  | .while c b => by
    unfold nameStmt
    exact ((tell_expr c).up.bind fun _ => Still.thenU (x := frontOps.openScope) still_open fun _ => (tell_stmt b).still fun _ =>
      Still.bind (x := frontOps.closeScope) still_close fun _ => .pure).cast (by simp [TypeIn]) (by simp [MakesS])
  | .for i c s b => by
    unfold nameStmt
    exact (Still.thenU (x := frontOps.openScope) still_open fun _ => (tell_stmt i).bind fun _ => (tell_expr c).up.bind fun _ => (tell_stmt s).bind fun _ =>
      (tell_stmt b).still fun _ => Still.bind (x := frontOps.closeScope) still_close fun _ => .pure).cast (by simp [TypeIn]) (by simp [MakesS])
  | .ret none => by
    unfold nameStmt
    exact (Still.bind (x := frontOps.inFunc) (still_require true) fun _ => .pure).tell.up.cast (by simp [TypeIn]) (by simp [MakesS])
  | .ret (some e) => by
    unfold nameStmt
    exact (Still.then (x := frontOps.inFunc) (still_require true) fun _ => Still.then (x := frontOps.valueFunc) still_value fun _ =>
      (tell_expr e).still fun _ => .pure).up.cast (by simp [TypeIn]) (by simp [MakesS])
  | .brk => by unfold nameStmt; exact Still.pure.tell.up.cast (by simp [TypeIn]) (by simp [MakesS])
  | .cont => by unfold nameStmt; exact Still.pure.tell.up.cast (by simp [TypeIn]) (by simp [MakesS])
  | .use m as a => by
    unfold nameStmt
    exact (Still.bind (x := frontOps.topLevel) still_top fun _ => .pure).tell.up.cast (by simp [TypeIn]) (by simp [MakesS])
  | .struct n fs => by
    unfold nameStmt
    refine TellU.cast (Still.thenU (x := frontOps.noFunc) (still_require false) fun _ => TellU.bind (x := frontOps.beginStruct n) (T := fun _ => False)
      (M := fun _ => False) (fun f a f' hu h => tell_beginStruct n h hu) fun _ => (tell_fields n fs).up.still fun _ =>
      Still.bind (x := frontOps.endStruct n) (still_end n) fun _ => .pure) (by simp [TypeIn]) (by simp [MakesS])
theorem tell_stmts : ∀ ss : List SStmt, TellU (nameStmts frontOps ss) (fun n => TypesIn n ss) fun n => Makes n ss
  | [] => by unfold nameStmts; exact Still.pure.tell.up.cast (by simp [TypesIn]) (by simp [Makes])
  | s :: ss => by
    unfold nameStmts
    exact ((tell_stmt s).bind fun _ => (tell_stmts ss).still fun _ => .pure).cast (by simp [TypesIn]) (by simp [Makes])
end

/-! ## The start, and the result -/

theorem agrees_start {f : Front} (hc : f.currFunc = .none) (hs : 0 ≤ f.currScope) (hd : AllStructsDefined f) : Agrees f (namesOf f) where
  globals := fun n => by
    unfold namesOf
    simp only [List.any_eq_true, List.mem_filterMap]
    refine exists_congr fun x => and_congr_right fun _ => ?_
    cases x <;> simp [Sym.isVar, globalName]
  structs := fun n => by
    unfold namesOf DefSt
    simp only [List.mem_filterMap]
    constructor
    · rintro ⟨fs, k⟩
      obtain ⟨x, hx, e⟩ := List.exists_of_findSome?_eq_some k
      refine ⟨x, hx, ?_⟩
      cases x <;> simp [Sym.structInfo] at e
      obtain ⟨rfl, rfl, rfl⟩ := e
      exact rfl
    · rintro ⟨x, hx, e⟩
      cases x <;> simp only [structName, reduceCtorEq] at e
      rename_i m d fs
      cases d <;> simp only [reduceCtorEq, Option.some.injEq] at e
      subst e
      cases hs : f.syms.findSome? (·.structInfo m) with
      | none =>
        rw [List.findSome?_eq_none_iff] at hs
        have := hs _ hx
        simp [Sym.structInfo] at this
      | some p =>
        obtain ⟨d, gs⟩ := p
        obtain ⟨A, B, e, -⟩ := structInfo_split hs
        have : d = true := hd m d gs (by rw [e]; simp)
        subst this
        exact ⟨gs, rfl⟩
  blank := fun n fs hm => by have := hd n false fs hm; cases this
  pos := hs
  nested := by simp [namesOf]
  out := fun _ => hc
  inn := fun φ e => by cases e
  lower := by rw [opens_none hc]; simp

theorem prim_listed (n : Name) : (primTag n).isSome = true ↔ ∃ p ∈ builtinTypes, bytes p.1 = n := by
  unfold primTag builtinTypes
  simp only [bytes_nameOf, List.mem_cons, List.not_mem_nil, or_false, exists_eq_or_imp, exists_eq_left]
  constructor
  · intro h
    by_cases h1 : n = nameOf "void"
    · exact .inl h1.symm
    by_cases h2 : n = nameOf "bool"
    · exact .inr (.inl h2.symm)
    by_cases h3 : n = nameOf "int"
    · exact .inr (.inr (.inl h3.symm))
    by_cases h4 : n = nameOf "float"
    · exact .inr (.inr (.inr (.inl h4.symm)))
    by_cases h5 : n = nameOf "str"
    · exact .inr (.inr (.inr (.inr (.inl h5.symm))))
    by_cases h6 : n = nameOf "any"
    · exact .inr (.inr (.inr (.inr (.inr h6.symm))))
    rw [if_neg h1, if_neg h2, if_neg h3, if_neg h4, if_neg h5, if_neg h6] at h
    cases h
  · rintro (rfl | rfl | rfl | rfl | rfl | rfl) <;> rfl

theorem typeAt_iff (f : Front) (n : Name) : TypeAt (tys f) n ↔ ∃ x ∈ f.syms, IsTypeNamed n x = true := by
  unfold TypeAt
  simp only [mem_tys]
  constructor
  · rintro ⟨d, x, hx, e⟩
    refine ⟨x, hx, ?_⟩
    cases x <;> simp [Sym.ty] at e
    · obtain ⟨rfl, -⟩ := e; simp [IsTypeNamed]
    · obtain ⟨rfl, -⟩ := e; simp [IsTypeNamed]
  · rintro ⟨x, hx, e⟩
    cases x <;> simp [IsTypeNamed] at e
    · subst e; exact ⟨_, _, hx, rfl⟩
    · subst e; exact ⟨_, _, hx, rfl⟩

/-- **The structs which are mentioned are all defined exactly if every type exists.** -/
theorem exist_iff {f f' : Front} {tree : List SStmt} {xs : List CStmt} (hc : f.currFunc = .none) (hs : 0 ≤ f.currScope) (hd : AllStructsDefined f)
    (h : nameStmts frontOps tree f = .ok xs f') : AllDefined f' ↔ TypesExist f tree := by
  have hu : (tys f).Pairwise Apart := by
    refine List.Pairwise.imp_of_mem (R := fun _ _ => True) ?_ (List.pairwise_of_forall fun _ _ => trivial)
    intro a b ha hb _ _ h1 h2
    have key : ∀ a : Name × Option Bool, a ∈ tys f → a.2.isSome = true → a.2 = some true := by
      intro a ha h1
      obtain ⟨x, hx, e⟩ := mem_tys.1 ha
      cases x <;> simp [Sym.ty] at e
      · rw [← e] at h1; cases h1
      · rw [← e, hd _ _ _ hx]
    exact ⟨key a ha h1, key b hb h2⟩
  have k := tell_stmts tree f xs f' hu h
  have hu' := k.uniq hu
  have p : Post f (namesOf f) f' ((namesOf f).afterL tree) := by
    have := ex_stmts tree (agrees_start hc hs hd)
    unfold Ex at this
    rw [h] at this
    exact this.2
  have undef : AllDefined f' ↔ ∀ n, (n, some false) ∉ tys f' := by
    constructor
    · intro h n hn
      obtain ⟨x, hx, e⟩ := mem_tys.1 hn
      have := h x hx
      cases x <;> simp [Sym.ty] at e
      obtain ⟨rfl, rfl⟩ := e
      cases this
    · intro h x hx
      cases x <;> try rfl
      rename_i n d fs
      cases d with
      | true => rfl
      | false => exact absurd (mem_tys.2 ⟨_, hx, rfl⟩) (h n)
  have defd : ∀ n, n ∈ ((namesOf f).afterL tree).structs ↔ DefSt f'.syms n := fun n => (p.agree.structs n).symm
  have has : ∀ n, AllDefined f' → StructIn (tys f') n → DefSt f'.syms n := by
    rintro n hall ⟨d, hn⟩
    obtain ⟨x, hx, e⟩ := mem_tys.1 hn
    cases hs : f'.syms.findSome? (·.structInfo n) with
    | none =>
      rw [List.findSome?_eq_none_iff] at hs
      have := hs _ hx
      cases x <;> simp [Sym.ty] at e
      obtain ⟨rfl, rfl⟩ := e
      simp [Sym.structInfo] at this
    | some q =>
      obtain ⟨d, gs⟩ := q
      obtain ⟨A, B, e, -⟩ := structInfo_split hs
      have := hall (.struct n d gs) (by rw [e]; simp)
      cases d with
      | false => cases this
      | true => exact ⟨gs, hs⟩
  have alone : ∀ n, DefSt f'.syms n → (n, some false) ∉ tys f' := by
    rintro n ⟨gs, hs⟩ hn
    obtain ⟨A, B, e, hA⟩ := structInfo_split hs
    have e1 : tys f' = A.filterMap Sym.ty ++ (n, some true) :: B.filterMap Sym.ty := by
      unfold tys; rw [e]; simp [Sym.ty]
    rw [e1] at hn hu'
    rw [List.pairwise_append, List.pairwise_cons] at hu'
    obtain ⟨h1, ⟨h2, h3⟩, h4⟩ := hu'
    rcases List.mem_append.1 hn with hn | hn
    · have := (h4 _ hn _ (List.mem_cons_self ..) rfl rfl rfl).1
      cases this
    · rcases List.mem_cons.1 hn with hn | hn
      · cases hn
      · have := (h2 _ hn rfl rfl rfl).2
        cases this
  rw [undef]
  constructor
  · intro hall
    have hall' := undef.2 hall
    refine ⟨fun n hn => ?_, fun n hn => (defd n).2 (has n hall' (k.made n hn))⟩
    rcases k.types n hn with h | ⟨d, h⟩
    · exact .inl (.inl ((prim_listed n).1 h))
    · cases d with
      | none => exact .inl (.inr ((typeAt_iff f n).1 ⟨none, (k.same n).1 h⟩))
      | some d => exact .inr ((defd n).2 (has n hall' ⟨d, h⟩))
  · rintro ⟨h1, h2⟩ n hn
    rcases k.orig n hn with h | h | ⟨ht, hp, hno⟩
    · obtain ⟨x, hx, e⟩ := mem_tys.1 h
      cases x <;> simp [Sym.ty] at e
      obtain ⟨rfl, rfl⟩ := e
      cases hd _ _ _ hx
    · exact alone n ((defd n).1 (h2 n h)) hn
    · rcases h1 n ht with (h | h) | h
      · have := (prim_listed n).2 h
        rw [hp] at this
        cases this
      · exact hno ((typeAt_iff f n).2 h)
      · exact alone n ((defd n).1 h) hn

end Tiny
