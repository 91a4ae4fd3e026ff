import Verif.Proofs.Resolve

/-!
# The type checker follows the rules: statements
-/

namespace Tiny
open Spec

/-! ## Tables without the types of variables -/

/-- Forget the type of a variable. -/
def VarInfo.bare (v : VarInfo) : VarInfo := { v with tag := none }

/-- Forget the types of variables. -/
def Sym.bare : Sym → Sym
  | .glob v => .glob v.bare
  | .func fi => .func { fi with locals := fi.locals.map VarInfo.bare }
  | s => s

/-- Forget the types of variables. -/
def Front.bare (f : Front) : Front := { f with syms := f.syms.map Sym.bare }

theorem bare_idx (v : VarInfo) : v.bare.idx = v.idx := rfl

theorem symInfo_bare {f : Front} {r : SymRef} {s : VarSym} :
    (∃ t, symInfo f r = .ok (s, t)) ↔ ∃ t, symInfo f.bare r = .ok (s, t) := by
  cases r with
  | glob i =>
    simp only [symInfo, Front.bare, List.getElem?_map]
    cases f.syms[i]? with
    | none => simp
    | some x => cases x <;> simp [Sym.bare, VarInfo.bare]
  | loc k =>
    simp only [symInfo, Front.bare, List.getElem?_map]
    cases f.currFunc with
    | none => simp
    | dangling => simp
    | «at» i =>
      simp only
      cases f.syms[i]? with
      | none => simp
      | some x =>
        cases x <;> simp [Sym.bare]
        next fi => cases fi.locals[k]? <;> simp [VarInfo.bare]
  | arg k =>
    simp only [symInfo, Front.bare, List.getElem?_map]
    cases f.currFunc with
    | none => simp
    | dangling => simp
    | «at» i =>
      simp only
      cases f.syms[i]? with
      | none => simp
      | some x =>
        cases x <;> simp [Sym.bare]

/-- Two tables which differ in the types of variables only. -/
def Like (f f' : Front) : Prop := f.bare = f'.bare

theorem Like.refl (f : Front) : Like f f := rfl
theorem Like.symm {f f' : Front} (h : Like f f') : Like f' f := Eq.symm h
theorem Like.trans {f g h : Front} (a : Like f g) (b : Like g h) : Like f h := Eq.trans a b
theorem Like.cur {f f' : Front} (h : Like f f') : f'.currFunc = f.currFunc := (congrArg Front.currFunc h).symm
theorem Like.syms {f f' : Front} (h : Like f f') : f'.syms.map Sym.bare = f.syms.map Sym.bare := (congrArg Front.syms h).symm

theorem Like.enter {f f' : Front} (h : Like f f') (c : Cur) : Like { f with currFunc := c } { f' with currFunc := c } := by
  unfold Like Front.bare at *
  cases f; cases f'
  simp_all

theorem Like.sym {f f' : Front} (h : Like f f') {r : SymRef} {s : VarSym} {t : Option Tag} (hr : symInfo f r = .ok (s, t)) :
    ∃ t', symInfo f' r = .ok (s, t') := by
  rw [symInfo_bare, ← h, ← symInfo_bare]
  exact ⟨t, hr⟩

theorem Like.namedFn {f f' : Front} (h : Like f f') {n : Name} {k : FnSym} (hk : NamedFn f n k) : NamedFn f' n k := by
  have H : ∀ x, x ∈ f.syms → ∃ y ∈ f'.syms, y.bare = x.bare := fun x hx => by
    have : x.bare ∈ f'.syms.map Sym.bare := by rw [h.syms]; exact List.mem_map_of_mem hx
    obtain ⟨y, hy, e⟩ := List.mem_map.mp this
    exact ⟨y, hy, e⟩
  cases k with
  | tiny i =>
    obtain ⟨fi, h1, h2, h3⟩ := hk
    obtain ⟨y, hy, e⟩ := H _ h1
    cases y <;> simp only [Sym.bare, reduceCtorEq, Sym.func.injEq, FuncInfo.mk.injEq] at e
    next fj => exact ⟨fj, hy, e.1.trans h2, e.2.1.trans h3⟩
  | «foreign» i m va =>
    obtain ⟨ts, r, h1, h2⟩ := hk
    obtain ⟨y, hy, e⟩ := H _ h1
    cases y <;> simp only [Sym.bare, reduceCtorEq] at e
    exact ⟨ts, r, e ▸ hy, h2⟩

theorem Like.index {f f' : Front} (h : Like f f') {g s : Option FnSym} (k : IndexFns f g s) : IndexFns f' g s := by
  obtain ⟨t, ⟨x, h1, h2⟩, h3⟩ := k
  exact ⟨t, ⟨x, h1, h.namedFn h2⟩, fun y hy => h.namedFn (h3 y hy)⟩

theorem Like.resolved {f f' : Front} (h : Like f f') {e : CExpr} {e' : Expr} (hr : Resolved f e e') : Resolved f' e e' := by
  induction hr with
  | null => exact .null
  | bool => exact .bool
  | int => exact .int
  | char => exact .char
  | float => exact .float
  | str => exact .str
  | id hs => exact .id (h.sym hs).choose_spec
  | call h1 _ hx ih => exact .call h1 ih (hx.imp fun _ => h.namedFn)
  | paren _ ih => exact .paren ih
  | bin _ _ ih1 ih2 => exact .bin ih1 ih2
  | un _ ih => exact .un ih
  | dot _ ih => exact .dot ih
  | index _ _ hx ih1 ih2 => exact .index ih1 ih2 (h.index hx)
  | ctor h1 _ ih => exact .ctor h1 ih
  | ctorNamed h0 h1 _ ih => exact .ctorNamed h0 h1 ih
  | cast _ ih => exact .cast ih
  | ite _ _ _ ih1 ih2 ih3 => exact .ite ih1 ih2 ih3

theorem Like.func {f f' : Front} (h : Like f f') {i : Nat} {fi : FuncInfo} (hi : f.syms[i]? = some (.func fi)) :
    ∃ fi', f'.syms[i]? = some (.func fi') ∧ fi'.index = fi.index ∧ fi'.args = fi.args ∧ fi'.ret = fi.ret ∧
      fi'.locals.length = fi.locals.length := by
  have := congrArg (fun l : List Sym => l[i]?) h.syms
  simp only [List.getElem?_map, hi, Option.map_some] at this
  cases hx : f'.syms[i]? with
  | none => rw [hx] at this; cases this
  | some x =>
    rw [hx] at this
    simp only [Option.map_some, Option.some.injEq] at this
    cases x <;> simp only [Sym.bare, reduceCtorEq, Sym.func.injEq, FuncInfo.mk.injEq] at this
    next fi' =>
    obtain ⟨_, h2, h3, h4, h5⟩ := this
    have := congrArg List.length h4
    simp only [List.length_map] at this
    exact ⟨fi', rfl, h2, h3, h5, this⟩

theorem Like.resolvedS {s : CStmt} {s' : Stmt} {f : Front} (hr : ResolvedS f s s') :
    ∀ {f' : Front}, Like f f' → ResolvedS f' s s' := by
  induction hr with
  | node _ ih => exact fun h => .node (ih h)
  | call h1 => exact fun h => .call (h.resolved h1)
  | nil => exact fun _ => .nil
  | cons _ _ ih1 ih2 => exact fun h => .cons (ih1 h) (ih2 h)
  | assign h1 h2 h3 => exact fun h => .assign h1 (h.resolved h2) (h.resolved h3)
  | other h1 h2 => exact fun h => .other h1 (h.resolved h2)
  | proc h1 _ ih =>
    intro f' h
    obtain ⟨fi', h2, h3, h4, _, h5⟩ := h.func h1
    rw [← h3, ← h4, ← h5]
    exact .proc h2 (ih (h.enter _))
  | ifThen h1 _ ih => exact fun h => .ifThen (h.resolved h1) (ih h)
  | ifElse h1 _ _ ih1 ih2 => exact fun h => .ifElse (h.resolved h1) (ih1 h) (ih2 h)
  | «while» h1 _ ih => exact fun h => .while (h.resolved h1) (ih h)
  | «for» _ h1 _ _ ih1 ih2 ih3 => exact fun h => .for (ih1 h) (h.resolved h1) (ih2 h) (ih3 h)
  | retNone => exact fun _ => .retNone
  | ret h1 => exact fun h => .ret (h.resolved h1)
  | brk => exact fun _ => .brk
  | cont => exact fun _ => .cont
  | use => exact fun _ => .use
  | struct => exact fun _ => .struct

theorem filterMap_bare {α : Type} (g : Sym → Option α) (h : ∀ x : Sym, g x.bare = g x) (l : List Sym) :
    (l.map Sym.bare).filterMap g = l.filterMap g := by
  induction l with
  | nil => rfl
  | cons x xs ih => simp only [List.map_cons, List.filterMap_cons, h, ih]

theorem mem_bare_func {f : Front} {fi : FuncInfo} (h : Sym.func fi ∈ f.syms) :
    Sym.func { fi with locals := fi.locals.map VarInfo.bare } ∈ f.bare.syms :=
  List.mem_map.2 ⟨_, h, rfl⟩

theorem bare_mem_func {f : Front} {fi : FuncInfo} (h : Sym.func fi ∈ f.bare.syms) :
    ∃ g, Sym.func g ∈ f.syms ∧ fi = { g with locals := g.locals.map VarInfo.bare } := by
  obtain ⟨x, hx, e⟩ := List.mem_map.1 h
  cases x <;> simp only [Sym.bare, reduceCtorEq, Sym.func.injEq] at e
  exact ⟨_, hx, e.symm⟩

theorem slots_bare {f : Front} : Slots f ↔ Slots f.bare := by
  have e1 : f.bare.syms.filterMap Sym.globIdx = f.syms.filterMap Sym.globIdx :=
    filterMap_bare _ (fun x => by cases x <;> rfl) _
  have e2 : f.bare.syms.filterMap Sym.funcIdx = f.syms.filterMap Sym.funcIdx :=
    filterMap_bare _ (fun x => by cases x <;> rfl) _
  have e3 : f.bare.syms.filterMap Sym.foreignIdx = f.syms.filterMap Sym.foreignIdx :=
    filterMap_bare _ (fun x => by cases x <;> rfl) _
  constructor
  · rintro ⟨a, b, c, d, e, g, i, j⟩
    refine ⟨by rwa [e1], by rw [e1]; exact b, by rwa [e2], by rw [e2]; exact d, by rwa [e3], by rw [e3]; exact g, ?_, ?_⟩
    · intro fi hf k v hv
      obtain ⟨g, hg, rfl⟩ := bare_mem_func hf
      exact i g hg k v hv
    · intro fi hf k v hv
      obtain ⟨g, hg, rfl⟩ := bare_mem_func hf
      simp only [List.getElem?_map, Option.map_eq_some_iff] at hv
      obtain ⟨u, hu, rfl⟩ := hv
      exact j g hg k u hu
  · rintro ⟨a, b, c, d, e, g, i, j⟩
    rw [e1] at a b
    rw [e2] at c d
    rw [e3] at e g
    refine ⟨a, b, c, d, e, g, ?_, ?_⟩
    · intro fi hf k v hv
      exact i _ (mem_bare_func hf) k v hv
    · intro fi hf k v hv
      exact j _ (mem_bare_func hf) k v.bare (by simp [hv])

theorem tables_bare {f : Front} : Tables f ↔ Tables f.bare := by
  have hc : ∀ n t c, Sym.const n t c ∈ f.bare.syms ↔ Sym.const n t c ∈ f.syms := by
    intro n t c
    simp only [Front.bare, List.mem_map]
    constructor
    · rintro ⟨x, hx, e⟩
      cases x <;> simp only [Sym.bare, reduceCtorEq] at e
      rw [← e]; exact hx
    · exact fun h => ⟨_, h, rfl⟩
  constructor
  · rintro ⟨a, b, c, d⟩
    refine ⟨slots_bare.1 a, fun n t c h => b n t c ((hc n t c).1 h), ?_, ?_⟩
    · intro fi hf
      obtain ⟨g, hg, rfl⟩ := bare_mem_func hf
      exact c g hg
    · intro fi hf
      obtain ⟨g, hg, rfl⟩ := bare_mem_func hf
      exact d g hg
  · rintro ⟨a, b, c, d⟩
    exact ⟨slots_bare.2 a, fun n t c h => b n t c ((hc n t c).2 h), fun fi hf v hv => c { fi with locals := fi.locals.map VarInfo.bare } (mem_bare_func hf) v hv,
      fun fi hf => d { fi with locals := fi.locals.map VarInfo.bare } (mem_bare_func hf)⟩

theorem Like.tables {f f' : Front} (h : Like f f') (ht : Tables f) : Tables f' := by
  rw [tables_bare, ← h, ← tables_bare]; exact ht

theorem Like.curFn {f f' : Front} (h : Like f f') : curFn f' = curFn f := by
  unfold Spec.curFn
  rw [h.cur]
  cases hc : f.currFunc with
  | none => rfl
  | dangling => rfl
  | «at» k =>
    simp only
    have := congrArg (fun l : List Sym => l[k]?) h.syms
    simp only [List.getElem?_map] at this
    cases hx : f.syms[k]? with
    | none => rw [hx] at this; cases hy : f'.syms[k]? with
      | none => rfl
      | some y => rw [hy] at this; cases this
    | some x =>
      cases hy : f'.syms[k]? with
      | none => rw [hx, hy] at this; cases this
      | some y =>
        rw [hx, hy] at this
        simp only [Option.map_some, Option.some.injEq] at this
        cases x <;> cases y <;> simp_all [Sym.bare]

/-! ## The types seen from a function -/

theorem pairwise_inj_nat {α : Type} {g : α → Nat} {l : List α} (h : (l.map g).Pairwise (· < ·)) {i j : Nat} {a b : α}
    (hi : l[i]? = some a) (hj : l[j]? = some b) (e : g a = g b) : i = j := by
  refine pairwise_inj (g := fun a => (g a : Int)) ?_ hi hj (by simp [e])
  rw [List.pairwise_map] at h ⊢
  exact h.imp fun h => by omega

theorem funcIdx_eq (l : List Sym) : l.filterMap Sym.funcIdx = (l.filterMap funcInfo).map FuncInfo.index := by
  induction l with
  | nil => rfl
  | cons x xs ih => cases x <;> simp_all [Sym.funcIdx, funcInfo, List.filterMap_cons]

theorem find_func {f : Front} (h : Slots f) {fi : FuncInfo} (hf : Sym.func fi ∈ f.syms) :
    (f.syms.filterMap funcInfo).find? (·.index = fi.index) = some fi := by
  have hm : fi ∈ f.syms.filterMap funcInfo := List.mem_filterMap.2 ⟨_, hf, rfl⟩
  obtain ⟨k, hk⟩ := List.mem_iff_getElem?.1 hm
  have hp := h.funcs
  rw [funcIdx_eq] at hp
  rw [List.find?_eq_some_iff_getElem]
  obtain ⟨hk', rfl⟩ := List.getElem?_eq_some_iff.1 hk
  refine ⟨by simp, k, hk', rfl, fun j hj => ?_⟩
  have hj' : j < (f.syms.filterMap funcInfo).length := by omega
  simp only [Bool.not_eq_eq_eq_not, Bool.not_true, decide_eq_false_iff_not]
  intro e
  have := pairwise_inj_nat hp (List.getElem?_eq_getElem hj') hk e
  omega

theorem baseEnv_body {f : Front} (h : Tables f) {fi : FuncInfo} (hf : Sym.func fi ∈ f.syms) :
    ∃ r, fi.ret = some r ∧ (baseEnv f).body fi.index = some (funcVars fi, r) := by
  obtain ⟨r, hr⟩ := Option.isSome_iff_exists.1 (h.rets fi hf)
  refine ⟨r, hr, ?_⟩
  show (match (f.syms.filterMap funcInfo).find? (·.index = fi.index) with
    | some fi => fi.ret.map fun r => (funcVars fi, r)
    | none => none) = _
  rw [find_func h.slots hf]
  simp [hr]

theorem tyEnv_at {f : Front} (h : Tables f) : (baseEnv f).at (curFn f) = tyEnv f := by
  have : ∀ s, ((baseEnv f).at (curFn f)).var s = (tyEnv f).var s := by
    intro s
    cases s with
    | glob i => rfl
    | const c => rfl
    | loc i =>
      show ((curFn f).bind (baseEnv f).body).bind (fun b => b.1 i) = currentVars f i
      unfold curFn currentVars
      cases hc : f.currFunc with
      | none => rfl
      | dangling => rfl
      | «at» k =>
        simp only
        cases hx : f.syms[k]? with
        | none => rfl
        | some x =>
          cases x <;> try rfl
          next fi =>
          obtain ⟨r, _, hb⟩ := baseEnv_body h (List.mem_of_getElem? hx)
          simp [hb]
  show TyEnv.mk _ _ _ _ _ _ _ = TyEnv.mk _ _ _ _ _ _ _
  congr 1
  funext s
  exact this s

theorem baseEnv_enter (f : Front) (c : Cur) : baseEnv { f with currFunc := c } = baseEnv f := by
  unfold baseEnv TyEnv.enter tyEnv
  congr 1
  funext s
  cases s <;> rfl

theorem tables_enter {f : Front} (h : Tables f) (c : Cur) : Tables { f with currFunc := c } := by
  obtain ⟨⟨a, b, c, d, e, g, i, j⟩, h2, h3, h4⟩ := h
  exact ⟨⟨a, b, c, d, e, g, i, j⟩, h2, h3, h4⟩

/-! ## Declarations -/

theorem set_split {α : Type} {l : List α} {i : Nat} {x : α} (h : l[i]? = some x) :
    ∃ A B, l = A ++ x :: B ∧ ∀ y, l.set i y = A ++ y :: B := by
  obtain ⟨hi, rfl⟩ := List.getElem?_eq_some_iff.1 h
  refine ⟨l.take i, l.drop (i + 1), by simp, fun y => ?_⟩
  rw [List.set_eq_take_append_cons_drop, if_pos hi]

theorem modify_bare (l : List VarInfo) (k : Nat) (t : Tag) :
    (l.modify k fun v => { v with tag := some t }).map VarInfo.bare = l.map VarInfo.bare := by
  induction l generalizing k with
  | nil => simp
  | cons x xs ih => cases k <;> simp [ih, VarInfo.bare]

/-- What `:=` writes to the table. -/
theorem declare_inv {f : Front} {n : Name} {x : SymRef} {s : VarSym} {t0 : Option Tag} {t : Tag} {f' : Front}
    (hs : symInfo f x = .ok (s, t0)) (hx : ∀ k, x ≠ .arg k) (h : setVarTag (some x) t f = .ok () f') :
    ∃ i a b, f.syms[i]? = some a ∧ f' = { f with syms := f.syms.set i b } ∧ a.bare = b.bare ∧
      ((∃ v, a = .glob v ∧ b = .glob { v with tag := some t } ∧ s = .glob v.idx.toNat) ∨
       ∃ fi k v, f.currFunc = .at i ∧ a = .func fi ∧ fi.locals[k]? = some v ∧ s = .loc v.idx ∧
        b = .func { fi with locals := fi.locals.modify k fun v => { v with tag := some t } }) := by
  cases x with
  | arg k => exact absurd rfl (hx k)
  | glob i =>
    simp only [symInfo] at hs
    simp only [setVarTag] at h
    cases hi : f.syms[i]? with
    | none => rw [hi] at h; cases h
    | some a =>
      rw [hi] at h hs
      cases a <;> first | cases h; done | skip
      next v =>
      cases h
      cases hs
      exact ⟨i, _, _, hi, rfl, rfl, .inl ⟨v, rfl, rfl, rfl⟩⟩
  | loc k =>
    simp only [symInfo] at hs
    simp only [setVarTag, updateFunc] at h
    cases hc : f.currFunc with
    | none => rw [hc] at h; cases h
    | dangling => rw [hc] at h; cases h
    | «at» i =>
      rw [hc] at h hs
      simp only at h hs
      cases hi : f.syms[i]? with
      | none => rw [hi] at h; cases h
      | some a =>
        rw [hi] at h hs
        cases a <;> first | cases h; done | skip
        next fi =>
        cases h
        simp only at hs
        cases hk : fi.locals[k]? with
        | none => rw [hk] at hs; cases hs
        | some v =>
          rw [hk] at hs
          cases hs
          refine ⟨i, _, _, hi, rfl, ?_, .inr ⟨fi, k, v, rfl, rfl, hk, rfl, rfl⟩⟩
          simp only [Sym.bare, modify_bare]

theorem declare_like {f : Front} {i : Nat} {a b : Sym} (h : f.syms[i]? = some a) (e : a.bare = b.bare) :
    Like f { f with syms := f.syms.set i b } := by
  obtain ⟨A, B, h1, h2⟩ := set_split h
  unfold Like Front.bare
  simp only [h1]
  rw [h1] at h2
  rw [h2 b]
  simp [e]

theorem find_one {α : Type} {p : α → Bool} {A B : List α} {x y : α} (hx : p x = false) (hy : p y = false) :
    (A ++ x :: B).find? p = (A ++ y :: B).find? p := by simp [List.find?_append, List.find?_cons, hx, hy]

theorem findSome_one {α β : Type} {p : α → Option β} {A B : List α} {x y : α} (h : p x = p y) :
    (A ++ x :: B).findSome? p = (A ++ y :: B).findSome? p := by simp [List.findSome?_append, List.findSome?_cons, h]

theorem filterMap_one {α β : Type} {p : α → Option β} {A B : List α} {x y : α} (h : p x = p y) :
    (A ++ x :: B).filterMap p = (A ++ y :: B).filterMap p := by simp [List.filterMap_append, List.filterMap_cons, h]

theorem typeAt_one {A B : List VarInfo} {v : VarInfo} {t : Tag} (h : ∀ u ∈ A, u.idx ≠ v.idx) (j : Int) :
    typeAt j (A ++ { v with tag := some t } :: B) = if j = v.idx then some t else typeAt j (A ++ v :: B) := by
  unfold typeAt
  by_cases hj : j = v.idx
  · subst hj
    have : A.find? (fun u => decide (u.idx = v.idx)) = none := by
      rw [List.find?_eq_none]
      intro u hu
      simp [h u hu]
    simp [List.find?_append, List.find?_cons, this]
  · rw [if_neg hj]
    have : ¬ v.idx = j := fun e => hj e.symm
    simp [List.find?_append, List.find?_cons, this]

theorem TyEnv.ext' {Γ Γ' : TyEnv} (h1 : ∀ s, Γ.var s = Γ'.var s) (h2 : ∀ n, Γ.func n = Γ'.func n)
    (h3 : ∀ n, Γ.fields n = Γ'.fields n) (h7 : ∀ n, Γ.hidden n = Γ'.hidden n) (h4 : ∀ i, Γ.body i = Γ'.body i) (h5 : Γ.getIndex = Γ'.getIndex)
    (h6 : Γ.setIndex = Γ'.setIndex) : Γ = Γ' := by
  obtain ⟨a, b, c, g, d, e, f⟩ := Γ
  obtain ⟨a', b', c', g', d', e', f'⟩ := Γ'
  simp only at h5 h6
  simp only [TyEnv.mk.injEq]
  exact ⟨funext h1, funext h2, funext h3, funext h7, funext h4, h5, h6⟩

/-- **A declaration changes the type of the variable it declares, and nothing else.** -/
theorem baseEnv_declare {f : Front} (ht : Tables f) {n : Name} {x : SymRef} {s : VarSym} {t0 : Option Tag} {t : Tag} {f' : Front}
    (hs : symInfo f x = .ok (s, t0)) (hx : ∀ k, x ≠ .arg k) (h : setVarTag (some x) t f = .ok () f') :
    Like f f' ∧ (∀ c, s ≠ .const c) ∧ baseEnv f' = (baseEnv f).declare (curFn f) s t := by
  obtain ⟨i, a, b, hi, rfl, hb, hab⟩ := declare_inv (n := n) hs hx h
  refine ⟨declare_like hi hb, by rcases hab with ⟨v, _, _, rfl⟩ | ⟨_, _, v, _, _, _, rfl, _⟩ <;> simp, ?_⟩
  obtain ⟨A, B, h1, h2⟩ := set_split hi
  have h2 := h2 b
  rcases hab with ⟨v, rfl, rfl, rfl⟩ | ⟨fi, k, v, hc, rfl, hk, rfl, rfl⟩
  · have hm : Sym.glob v ∈ f.syms := List.mem_of_getElem? hi
    have hv := glob_nonneg ht.slots hm
    refine TyEnv.ext' ?_ ?_ ?_ ?_ ?_ rfl rfl
    · intro s
      cases s with
      | const c => rfl
      | loc j => rfl
      | glob j =>
        show typeAt j ((f.syms.set i _).filterMap globVar) = if VarSym.glob j = .glob v.idx.toNat then _ else
          typeAt j (f.syms.filterMap globVar)
        rw [h2, h1]
        simp only [List.filterMap_append, List.filterMap_cons, globVar]
        have hA : ∀ u ∈ A.filterMap globVar, u.idx ≠ v.idx := by
          have hp := ht.slots.globs
          rw [globIdx_eq, h1] at hp
          simp only [List.filterMap_append, List.filterMap_cons, globVar, List.map_append, List.map_cons,
            List.pairwise_append] at hp
          intro u hu e
          have := hp.2.2 u.idx (List.mem_map.2 ⟨u, hu, rfl⟩) v.idx (by simp)
          omega
        rw [typeAt_one hA]
        by_cases hj : j = v.idx.toNat
        · rw [if_pos (by omega), if_pos (by rw [hj])]
        · rw [if_neg (by omega), if_neg (by simp [hj])]
    · intro m
      show (referenceFunction (f.syms.set i _) m).bind symSig = (referenceFunction f.syms m).bind symSig
      unfold referenceFunction
      rw [h2, h1]
      exact congrArg (fun o : Option Sym => o.bind symSig) (find_one rfl rfl)
    · intro m
      show (match (f.syms.set i _).findSome? (·.structInfo m) with | some (true, fs) => some fs | _ => none) =
        (match f.syms.findSome? (·.structInfo m) with | some (true, fs) => some fs | _ => none)
      rw [h2, h1, findSome_one (p := (·.structInfo m)) (A := A) (B := B) (x := Sym.glob v) (y := Sym.glob { v with tag := some t }) rfl]
    · intro m
      show Front.hidden { f with syms := f.syms.set i _ } m = Front.hidden f m
      unfold Front.hidden
      dsimp only
      rw [h2, h1]
      rw [find_one (p := fun x : Sym => (x.asType m).isSome) (A := A) (B := B) (x := Sym.glob v) (y := Sym.glob { v with tag := some t }) rfl rfl]
    · intro m
      show (match ((f.syms.set i _).filterMap funcInfo).find? _ with | some fi => _ | none => none) =
        (match (f.syms.filterMap funcInfo).find? _ with | some fi => _ | none => none)
      rw [h2, h1, filterMap_one (p := funcInfo) (A := A) (B := B) (x := Sym.glob v) (y := Sym.glob { v with tag := some t }) rfl]
  · have hm : Sym.func fi ∈ f.syms := List.mem_of_getElem? hi
    have hcur : curFn f = some fi.index := by simp [curFn, hc, hi]
    refine TyEnv.ext' ?_ ?_ ?_ ?_ ?_ rfl rfl
    · intro s
      cases s with
      | const c => rfl
      | loc j => rfl
      | glob j =>
        show typeAt j ((f.syms.set i _).filterMap globVar) = typeAt j (f.syms.filterMap globVar)
        rw [h2, h1]
        exact congrArg (typeAt j) (filterMap_one rfl)
    · intro m
      show (referenceFunction (f.syms.set i _) m).bind symSig = (referenceFunction f.syms m).bind symSig
      unfold referenceFunction
      rw [h2, h1]
      generalize hp : (fun x : Sym => x.isFunc m) = p
      have hy : ∀ l, p (.func { fi with locals := l }) = (fi.name == m) := by intro l; rw [← hp]; rfl
      have hy0 : p (.func fi) = (fi.name == m) := hy _
      simp only [List.find?_append, List.find?_cons, hy, hy0]
      cases A.find? p with
      | some x => rfl
      | none =>
        simp only [Option.none_or]
        cases fi.name == m <;> rfl
    · intro m
      show (match (f.syms.set i _).findSome? (·.structInfo m) with | some (true, fs) => some fs | _ => none) =
        (match f.syms.findSome? (·.structInfo m) with | some (true, fs) => some fs | _ => none)
      rw [h2, h1, findSome_one (p := (·.structInfo m)) (A := A) (B := B) (x := Sym.func fi)
        (y := Sym.func { fi with locals := fi.locals.modify k fun v => { v with tag := some t } }) rfl]
    · intro m
      show Front.hidden { f with syms := f.syms.set i _ } m = Front.hidden f m
      unfold Front.hidden
      dsimp only
      rw [h2, h1]
      rw [find_one (p := fun x : Sym => (x.asType m).isSome) (A := A) (B := B) (x := Sym.func fi)
        (y := Sym.func { fi with locals := fi.locals.modify k fun v => { v with tag := some t } }) rfl rfl]
    · intro m
      have hE : (baseEnv f).body m = match (f.syms.filterMap funcInfo).find? (·.index = m) with
        | some fi => fi.ret.map fun r => (funcVars fi, r) | none => none := rfl
      show (match ((f.syms.set i _).filterMap funcInfo).find? (·.index = m) with
        | some fi => fi.ret.map fun r => (funcVars fi, r) | none => none) =
        if curFn f = some m then ((baseEnv f).body m).map _ else (baseEnv f).body m
      rw [hcur]
      rw [h2]
      simp only [List.filterMap_append, List.filterMap_cons, funcInfo, List.find?_append, List.find?_cons]
      have hA : ∀ u ∈ A.filterMap funcInfo, u.index ≠ fi.index := by
        have hp := ht.slots.funcs
        rw [funcIdx_eq, h1] at hp
        simp only [List.filterMap_append, List.filterMap_cons, funcInfo, List.map_append, List.map_cons,
          List.pairwise_append] at hp
        intro u hu e
        have := hp.2.2 u.index (List.mem_map.2 ⟨u, hu, rfl⟩) fi.index (by simp)
        omega
      by_cases hj : fi.index = m
      · subst hj
        rw [if_pos rfl]
        have hn : (A.filterMap funcInfo).find? (fun u => decide (u.index = fi.index)) = none := by
          rw [List.find?_eq_none]
          intro u hu
          simp [hA u hu]
        obtain ⟨r, hr, hbd⟩ := baseEnv_body ht hm
        rw [hn, hbd]
        simp only [Option.none_or, decide_true, hr, Option.map_some, Option.some.injEq, Prod.mk.injEq, and_true]
        funext j
        unfold funcVars
        simp only
        obtain ⟨C, D, g1, g2⟩ := set_split hk
        have hvs : v.idx = k := ht.slots.locals fi hm k v hk
        have e1 : fi.locals.modify k (fun v => { v with tag := some t }) = C ++ { v with tag := some t } :: D := by
          rw [← g2]
          apply List.ext_getElem?
          intro q
          rw [List.getElem?_modify, List.getElem?_set]
          by_cases hq : k = q
          · subst hq
            have := (List.getElem?_eq_some_iff.1 hk).1
            simp [this, ← (List.getElem?_eq_some_iff.1 hk).2]
          · simp [hq]
        rw [e1]
        conv => rhs; rw [g1]
        rw [← List.append_assoc, ← List.append_assoc]
        refine typeAt_one ?_ j
        intro u hu
        rcases List.mem_append.1 hu with hu | hu
        · obtain ⟨q, hq⟩ := List.mem_iff_getElem?.1 hu
          have := ht.slots.args fi hm q u hq
          have := (List.getElem?_eq_some_iff.1 hq).1
          omega
        · obtain ⟨q, hq⟩ := List.mem_iff_getElem?.1 hu
          have hql := (List.getElem?_eq_some_iff.1 hq).1
          have hu' : fi.locals[q]? = some u := by rw [g1, List.getElem?_append_left hql]; exact hq
          have := ht.slots.locals fi hm q u hu'
          have hkC : k = C.length := by
            have : (fi.locals.map VarInfo.idx).Pairwise (· < ·) := by
              rw [List.pairwise_map, List.pairwise_iff_getElem]
              intro i j hi hj hij
              have a := ht.slots.locals fi hm i _ (List.getElem?_eq_getElem hi)
              have b := ht.slots.locals fi hm j _ (List.getElem?_eq_getElem hj)
              omega
            refine pairwise_inj this hk (b := v) ?_ rfl
            rw [g1]; simp
          omega
      · rw [if_neg (by simpa using hj), hE, h1]
        simp [List.filterMap_append, List.filterMap_cons, funcInfo, List.find?_append, List.find?_cons, hj]

/-! ## What was accepted follows the rules -/

theorem Act.ok_inv {σ α β : Type} {x : Act σ α} {g : α → Act σ β} {b : β} {s s' : σ} (h : (x >>= g) s = .ok b s') :
    ∃ a s1, x s = .ok a s1 ∧ g a s1 = .ok b s' := by
  cases hx : x s with
  | ok a s1 => refine ⟨a, s1, rfl, ?_⟩; simp only [Bind.bind, hx] at h; exact h
  | err _ => simp only [Bind.bind, hx] at h; cases h
  | abort => simp only [Bind.bind, hx] at h; cases h
  | ub => simp only [Bind.bind, hx] at h; cases h
  | timeout => simp only [Bind.bind, hx] at h; cases h

theorem Act.check_ok {α : Type} {x : Front → Chk α} {f f' : Front} {a : α} :
    Act.check x f = .ok a f' ↔ x f = .ok a ∧ f' = f := by
  unfold Act.check
  cases hx : x f <;> simp [eq_comm]

theorem assigns_iff {op : Tok} : op.assigns = true ↔ (op = .equal ∨ (compound op).isSome = true) := by
  cases op <;> simp [Tok.assigns, compound]

theorem resolveCond_inv {f f' : Front} {c : CExpr} {c' : Expr} (ht : Tables f) (h : resolveCond c f = .ok c' f') :
    f' = f ∧ Resolved f c c' ∧ HasType ((baseEnv f).at (curFn f)) c' .bool := by
  unfold resolveCond at h
  replace h := Act.ok_inv h
  obtain ⟨⟨e, t⟩, f1, h1, h⟩ := h
  replace h1 := Act.check_ok.1 h1
  obtain ⟨h1, rfl⟩ := h1
  have h2 := resolveE_has ht c h1
  simp only at h
  split at h
  · cases h
  · next hb =>
    cases h
    simp only [bne_iff_ne, ne_eq, Decidable.not_not] at hb
    subst hb
    rw [tyEnv_at ht]
    exact ⟨rfl, h2⟩

theorem currentFunc_inv {f f' : Front} {o : Option FuncInfo} (h : currentFunc f = .ok o f') :
    f' = f ∧ (o = none ∨ ∃ i fi, f.currFunc = .at i ∧ f.syms[i]? = some (.func fi) ∧ o = some fi) := by
  unfold currentFunc at h
  cases hc : f.currFunc with
  | none => rw [hc] at h; cases h; exact ⟨rfl, .inl rfl⟩
  | dangling => rw [hc] at h; cases h
  | «at» i =>
    rw [hc] at h
    simp only at h
    cases hi : f.syms[i]? with
    | none => rw [hi] at h; cases h
    | some x =>
      rw [hi] at h
      cases x <;> cases h
      exact ⟨rfl, .inr ⟨i, _, rfl, hi, rfl⟩⟩

theorem result_cur {f : Front} (ht : Tables f) {i : Nat} {fi : FuncInfo} (hc : f.currFunc = .at i)
    (hi : f.syms[i]? = some (.func fi)) : (baseEnv f).result (curFn f) = fi.ret := by
  obtain ⟨r, h1, h2⟩ := baseEnv_body ht (List.mem_of_getElem? hi)
  have : curFn f = some fi.index := by simp [curFn, hc, hi]
  simp [TyEnv.result, this, h2, h1]

/-- What acceptance of a statement means. -/
structure Accepted (f : Front) (s : CStmt) (s' : Stmt) (f' : Front) : Prop where
  like : Like f f'
  resolved : ResolvedS f s s'
  checks : Checks (baseEnv f) (curFn f) s' (baseEnv f')

theorem resolveAssign_inv {f f' : Front} {op : Tok} {ann : Option Tag} {l r : CExpr} {s' : Stmt} (ht : Tables f)
    (ho : DeclaresOwn (.assign op ann l r)) (h : resolveAssign op l r f = .ok s' f') : Accepted f (.assign op ann l r) s' f' := by
  unfold resolveAssign at h
  by_cases hd : op = .declare
  · rw [if_pos hd] at h
    subst hd
    replace h := Act.ok_inv h
    obtain ⟨⟨n, x, s⟩, f1, h1, h⟩ := h
    replace h1 := Act.check_ok.1 h1
    obtain ⟨h1, rfl⟩ := h1
    replace h := Act.ok_inv h
    obtain ⟨⟨r', t⟩, f1, h2, h⟩ := h
    replace h2 := Act.check_ok.1 h2
    obtain ⟨h2, rfl⟩ := h2
    simp only at h
    split at h
    · cases h
    next hv =>
    replace h := Act.ok_inv h
    obtain ⟨u, f2, h3, h⟩ := h
    cases h
    unfold declared at h1
    split at h1
    · next n' r0 =>
      split at h1
      · next s0 t0 hs =>
        cases h1
        have hx : ∀ k, x ≠ .arg k := fun k e => ho rfl n k (by rw [e])
        obtain ⟨q1, q2, q3⟩ := baseEnv_declare (n := n) ht hs hx h3
        have q4 := resolveE_has ht r h2
        refine ⟨q1, .assign (.inl rfl) (.id hs) q4.1, ?_⟩
        rw [q3]
        exact .declare q2 (by rw [tyEnv_at ht]; exact q4.2) hv
      all_goals cases h1
    · cases h1
  · rw [if_neg hd] at h
    by_cases ha : op.assigns = true
    · rw [if_pos ha] at h
      replace h := Act.ok_inv h
      obtain ⟨⟨l', tl⟩, f1, h1, h⟩ := h
      replace h1 := Act.check_ok.1 h1
      obtain ⟨h1, rfl⟩ := h1
      replace h := Act.ok_inv h
      obtain ⟨⟨r', tr⟩, f1, h2, h⟩ := h
      replace h2 := Act.check_ok.1 h2
      obtain ⟨h2, rfl⟩ := h2
      simp only at h
      split at h
      · next hv =>
        cases h
        have q1 := resolveE_has ht l h1
        have q2 := resolveE_has ht r h2
        rw [assigns_iff] at ha
        refine ⟨.refl _, .assign (.inr ha) q1.1 q2.1, .assign ha ?_ ?_ ((c36_assignable _ _).1 hv)⟩
        · rw [tyEnv_at ht]; exact q1.2
        · rw [tyEnv_at ht]; exact q2.2
      · cases h
    · rw [if_neg ha] at h
      replace h := Act.ok_inv h
      obtain ⟨⟨r', tr⟩, f1, h2, h⟩ := h
      replace h2 := Act.check_ok.1 h2
      obtain ⟨h2, rfl⟩ := h2
      cases h
      have q2 := resolveE_has ht r h2
      rw [assigns_iff] at ha
      exact ⟨.refl _, .other (by simp only [not_or]; exact ⟨hd, not_or.1 ha⟩) q2.1, .other hd ha (by rw [tyEnv_at ht]; exact q2.2)⟩

theorem resolveRet_inv {f f' : Front} {e : Option CExpr} {s' : Stmt} (ht : Tables f)
    (h : resolveRet e f = .ok s' f') : Accepted f (.ret e) s' f' := by
  unfold resolveRet at h
  replace h := Act.ok_inv h
  obtain ⟨o, f1, h1, h⟩ := h
  obtain ⟨rfl, rfl | ⟨i, fi, hc, hi, rfl⟩⟩ := currentFunc_inv h1
  · cases h
  have hres := result_cur ht hc hi
  cases e with
  | none =>
    simp only at h
    cases hr : fi.ret with
    | none => rw [hr] at h; cases h
    | some r =>
      rw [hr] at h
      simp only at h
      split at h
      · cases h
      · next hb =>
        cases h
        simp only [bne_iff_ne, ne_eq, Decidable.not_not] at hb
        subst hb
        exact ⟨.refl _, .retNone, .retVoid (by rw [hres, hr])⟩
  | some e =>
    simp only at h
    replace h := Act.ok_inv h
    obtain ⟨⟨e', t⟩, f1, h2, h⟩ := h
    replace h2 := Act.check_ok.1 h2
    obtain ⟨h2, rfl⟩ := h2
    have q := resolveE_has ht e h2
    cases hr : fi.ret with
    | none => rw [hr] at h; cases h
    | some r =>
      rw [hr] at h
      simp only at h
      split at h
      · next hv =>
        cases h
        exact ⟨.refl _, .ret q.1, .ret (by rw [hres, hr]) (by rw [tyEnv_at ht]; exact q.2) ((c36_assignable _ _).1 hv)⟩
      · cases h

mutual
theorem resolveS_has : ∀ (s : CStmt) {f f' : Front} {s' : Stmt}, Tables f → DeclaresOwn s →
    resolveS s f = .ok s' f' → Accepted f s s' f'
  | .node line s, f, f', s', ht, ho, h => by
    rw [resolveS] at h
    replace h := Act.ok_inv h
    obtain ⟨s1, f1, h1, h⟩ := h
    cases h
    rw [DeclaresOwn] at ho
    obtain ⟨a, b, c⟩ := resolveS_has s ht ho h1
    exact ⟨a, .node b, .node c⟩
  | .call callee args, f, f', s', ht, _, h => by
    rw [resolveS] at h
    replace h := Act.ok_inv h
    obtain ⟨⟨e, t⟩, f1, h1, h⟩ := h
    replace h1 := Act.check_ok.1 h1
    obtain ⟨h1, rfl⟩ := h1
    have q := resolveE_has ht _ h1
    obtain ⟨q1, q2⟩ := q
    simp only at h q1
    cases q1 with
    | call x y z =>
      cases h
      exact ⟨.refl _, .call (.call x y z), .call (by rw [tyEnv_at ht]; exact q2)⟩
  | .block ss, f, f', s', ht, ho, h => by
    rw [resolveS] at h
    replace h := Act.ok_inv h
    obtain ⟨ss', f1, h1, h⟩ := h
    cases h
    rw [DeclaresOwn] at ho
    exact resolveSs_has ss ht ho h1
  | .assign op ann l r, f, f', s', ht, ho, h => by
    rw [resolveS] at h
    exact resolveAssign_inv ht ho h
  | .proc decl n ps r body, f, f', s', ht, ho, h => by
    rw [resolveS] at h
    replace h := Act.ok_inv h
    obtain ⟨prev, f1, h1, h⟩ := h
    cases h1
    replace h := Act.ok_inv h
    obtain ⟨_, f2, h1, h⟩ := h
    cases h1
    replace h := Act.ok_inv h
    obtain ⟨⟨index, nargs, nlocals⟩, f3, h1, h⟩ := h
    replace h1 := Act.check_ok.1 h1
    obtain ⟨h1, rfl⟩ := h1
    simp only at h
    replace h := Act.ok_inv h
    obtain ⟨b', f3, h2, h⟩ := h
    replace h := Act.ok_inv h
    obtain ⟨_, f4, h3, h⟩ := h
    cases h3
    cases h
    rw [DeclaresOwn] at ho
    obtain ⟨a, b, c⟩ := resolveS_has body (tables_enter ht (.at decl)) ho h2
    unfold procInfo at h1
    simp only at h1
    split at h1
    · next fi hi =>
      cases h1
      have hl := a.enter f.currFunc
      obtain ⟨_, _, hbody⟩ := baseEnv_body ht (List.mem_of_getElem? hi)
      refine ⟨hl, .proc hi b, .proc hbody ?_⟩
      have : curFn { f with currFunc := .at decl } = some fi.index := by simp [curFn, hi]
      rw [this, baseEnv_enter] at c
      show Checks _ _ _ (baseEnv { f3 with currFunc := f.currFunc })
      rw [baseEnv_enter f3]
      exact c
    · cases h1
  | .ifThen c b, f, f', s', ht, ho, h => by
    rw [resolveS] at h
    replace h := Act.ok_inv h
    obtain ⟨c', f1, h1, h⟩ := h
    obtain ⟨rfl, q1, q2⟩ := resolveCond_inv ht h1
    replace h := Act.ok_inv h
    obtain ⟨b', f2, h2, h⟩ := h
    cases h
    rw [DeclaresOwn] at ho
    obtain ⟨x, y, z⟩ := resolveS_has b ht ho h2
    exact ⟨x, .ifThen q1 y, .ifThen q2 z⟩
  | .ifElse c b a, f, f', s', ht, ho, h => by
    rw [resolveS] at h
    replace h := Act.ok_inv h
    obtain ⟨c', f1, h1, h⟩ := h
    obtain ⟨rfl, q1, q2⟩ := resolveCond_inv ht h1
    replace h := Act.ok_inv h
    obtain ⟨b', f2, h2, h⟩ := h
    replace h := Act.ok_inv h
    obtain ⟨a', f3, h3, h⟩ := h
    cases h
    rw [DeclaresOwn] at ho
    obtain ⟨x, y, z⟩ := resolveS_has b ht ho.1 h2
    obtain ⟨x', y', z'⟩ := resolveS_has a (x.tables ht) ho.2 h3
    rw [x.curFn] at z'
    exact ⟨x.trans x', .ifElse q1 y (Like.resolvedS y' x.symm), .ifElse q2 z z'⟩
  | .while c b, f, f', s', ht, ho, h => by
    rw [resolveS] at h
    replace h := Act.ok_inv h
    obtain ⟨c', f1, h1, h⟩ := h
    obtain ⟨rfl, q1, q2⟩ := resolveCond_inv ht h1
    replace h := Act.ok_inv h
    obtain ⟨b', f2, h2, h⟩ := h
    cases h
    rw [DeclaresOwn] at ho
    obtain ⟨x, y, z⟩ := resolveS_has b ht ho h2
    exact ⟨x, .while q1 y, .while q2 z⟩
  | .for i c s b, f, f', s', ht, ho, h => by
    rw [resolveS] at h
    replace h := Act.ok_inv h
    obtain ⟨i', f1, h1, h⟩ := h
    replace h := Act.ok_inv h
    obtain ⟨c', f2, h2, h⟩ := h
    replace h := Act.ok_inv h
    obtain ⟨s1, f3, h3, h⟩ := h
    replace h := Act.ok_inv h
    obtain ⟨b', f4, h4, h⟩ := h
    cases h
    rw [DeclaresOwn] at ho
    obtain ⟨x1, y1, z1⟩ := resolveS_has i ht ho.1 h1
    have t1 := x1.tables ht
    obtain ⟨rfl, q1, q2⟩ := resolveCond_inv t1 h2
    obtain ⟨x2, y2, z2⟩ := resolveS_has s t1 ho.2.1 h3
    obtain ⟨x3, y3, z3⟩ := resolveS_has b (x2.tables t1) ho.2.2 h4
    rw [x1.curFn] at q2 z2
    rw [x2.curFn, x1.curFn] at z3
    exact ⟨(x1.trans x2).trans x3, .for y1 (x1.symm.resolved q1) (Like.resolvedS y2 x1.symm)
      (Like.resolvedS y3 (x1.trans x2).symm), .for z1 q2 z2 z3⟩
  | .ret e, f, f', s', ht, _, h => by
    rw [resolveS] at h
    exact resolveRet_inv ht h
  | .brk, f, f', s', _, _, h => by rw [resolveS] at h; cases h; exact ⟨.refl _, .brk, .brk⟩
  | .cont, f, f', s', _, _, h => by rw [resolveS] at h; cases h; exact ⟨.refl _, .cont, .cont⟩
  | .use _ _ _, f, f', s', _, _, h => by rw [resolveS] at h; cases h; exact ⟨.refl _, .use, .use⟩
  | .struct _ _, f, f', s', _, _, h => by rw [resolveS] at h; cases h; exact ⟨.refl _, .struct, .nil⟩
theorem resolveSs_has : ∀ (ss : List CStmt) {f f' : Front} {ss' : List Stmt}, Tables f → DeclareOwn ss →
    resolveSs ss f = .ok ss' f' → Accepted f (.block ss) (.block ss') f'
  | [], f, f', ss', _, _, h => by rw [resolveSs] at h; cases h; exact ⟨.refl _, .nil, .nil⟩
  | s :: ss, f, f', ss', ht, ho, h => by
    rw [resolveSs] at h
    replace h := Act.ok_inv h
    obtain ⟨s1, f1, h1, h⟩ := h
    replace h := Act.ok_inv h
    obtain ⟨ss1, f2, h2, h⟩ := h
    cases h
    rw [DeclareOwn] at ho
    obtain ⟨x, y, z⟩ := resolveS_has s ht ho.1 h1
    obtain ⟨x', y', z'⟩ := resolveSs_has ss (x.tables ht) ho.2 h2
    rw [x.curFn] at z'
    exact ⟨x.trans x', .cons y (Like.resolvedS y' x.symm), .cons z z'⟩
end

/-! ## What follows the rules is accepted -/

theorem Act.ok_bind {σ α β : Type} {x : Act σ α} {g : α → Act σ β} {a : α} {s s1 : σ} (h : x s = .ok a s1) :
    (x >>= g) s = g a s1 := by simp only [Bind.bind, h]

theorem Act.check_bind {α β : Type} {x : Front → Chk α} {g : α → Act Front β} {f : Front} {a : α} (h : x f = .ok a) :
    (Act.check x >>= g) f = g a f := Act.ok_bind (Act.check_ok.2 ⟨h, rfl⟩)

theorem resolveCond_complete {f : Front} (ht : Tables f) {c : CExpr} {c' : Expr} (h1 : Resolved f c c')
    (h2 : HasType ((baseEnv f).at (curFn f)) c' .bool) : resolveCond c f = .ok c' f := by
  rw [tyEnv_at ht] at h2
  unfold resolveCond
  rw [Act.check_bind (resolveE_complete ht h2 h1)]
  rfl

theorem setVarTag_ok {f : Front} {x : SymRef} {s : VarSym} {t0 : Option Tag} (hs : symInfo f x = .ok (s, t0))
    (hc : ∀ c, s ≠ .const c) (t : Tag) : ∃ f', setVarTag (some x) t f = .ok () f' := by
  cases x with
  | glob i =>
    simp only [symInfo] at hs
    simp only [setVarTag]
    cases hi : f.syms[i]? with
    | none => rw [hi] at hs; cases hs
    | some a =>
      rw [hi] at hs
      cases a <;> cases hs
      · exact ⟨_, rfl⟩
      · exact absurd rfl (hc _)
  | loc k =>
    simp only [symInfo] at hs
    simp only [setVarTag, updateFunc]
    cases hc : f.currFunc with
    | none => rw [hc] at hs; cases hs
    | dangling => rw [hc] at hs; cases hs
    | «at» i =>
      rw [hc] at hs
      simp only at hs
      cases hi : f.syms[i]? with
      | none => rw [hi] at hs; cases hs
      | some a =>
        rw [hi] at hs
        cases a <;> first | (cases hs; done) | exact ⟨_, by simp only [hi]; rfl⟩
  | arg k =>
    simp only [symInfo] at hs
    simp only [setVarTag, updateFunc]
    cases hc : f.currFunc with
    | none => rw [hc] at hs; cases hs
    | dangling => rw [hc] at hs; cases hs
    | «at» i =>
      rw [hc] at hs
      simp only at hs
      cases hi : f.syms[i]? with
      | none => rw [hi] at hs; cases hs
      | some a =>
        rw [hi] at hs
        cases a <;> first | (cases hs; done) | exact ⟨_, by simp only [hi]; rfl⟩

theorem resolveAssign_complete {f : Front} (ht : Tables f) {op : Tok} {ann : Option Tag} {l r : CExpr} {s' : Stmt} {Γ' : TyEnv}
    (ho : DeclaresOwn (.assign op ann l r))
    (h1 : ResolvedS f (.assign op ann l r) s') (h2 : Checks (baseEnv f) (curFn f) s' Γ') :
    ∃ f', resolveAssign op l r f = .ok s' f' ∧ baseEnv f' = Γ' := by
  have hat := tyEnv_at ht
  unfold resolveAssign
  cases h1 with
  | @assign _ _ _ _ l' _ r' hop hl hr =>
    cases h2 with
    | @declare _ _ n s _ t hc hr' hv =>
      rw [hat] at hr'
      cases hl with
      | @id _ x _ t0 hs =>
        rw [if_pos rfl]
        have hd : declared f (.id n (some x)) = .ok (n, x, s) := by simp [declared, hs]
        rw [Act.check_bind hd]
        simp only
        rw [Act.check_bind (resolveE_complete ht hr' hr)]
        simp only
        rw [if_neg hv]
        obtain ⟨f', hf⟩ := setVarTag_ok hs hc t
        have hx : ∀ k, x ≠ .arg k := fun k e => ho rfl n k (by rw [e])
        refine ⟨f', by rw [Act.ok_bind hf]; rfl, (baseEnv_declare (n := n) ht hs hx hf).2.2⟩
    | @assign _ _ _ _ _ tl tr ha hl' hr' has =>
      rw [hat] at hl' hr'
      rw [if_neg (by rintro rfl; simp [compound] at ha), if_pos (assigns_iff.2 ha)]
      rw [Act.check_bind (resolveE_complete ht hl' hl)]
      simp only
      rw [Act.check_bind (resolveE_complete ht hr' hr)]
      simp only
      rw [if_pos ((c36_assignable _ _).2 has)]
      exact ⟨f, rfl, rfl⟩
    | other hd ha hr' => exact absurd hop (by simp only [not_or]; exact ⟨hd, not_or.1 ha⟩)
  | @other _ _ _ _ _ r' hop hr =>
    cases h2 with
    | assign ha => exact absurd (Or.inr ha) hop
    | @other _ _ _ _ t hd ha hr' =>
      rw [hat] at hr'
      rw [if_neg hd, if_neg (by rw [assigns_iff]; exact ha), Act.check_bind (resolveE_complete ht hr' hr)]
      exact ⟨f, rfl, rfl⟩

theorem resolveRet_complete {f : Front} (ht : Tables f) {e : Option CExpr} {s' : Stmt} {Γ' : TyEnv}
    (h1 : ResolvedS f (.ret e) s') (h2 : Checks (baseEnv f) (curFn f) s' Γ') :
    ∃ f', resolveRet e f = .ok s' f' ∧ baseEnv f' = Γ' := by
  have hat := tyEnv_at ht
  have cur : ∀ {r}, (baseEnv f).result (curFn f) = some r → ∃ fi, currentFunc f = .ok (some fi) f ∧ fi.ret = some r := by
    intro r hr
    unfold TyEnv.result at hr
    cases hc : f.currFunc with
    | none => simp [curFn, hc] at hr
    | dangling => simp [curFn, hc] at hr
    | «at» i =>
      cases hi : f.syms[i]? with
      | none => simp [curFn, hc, hi] at hr
      | some x =>
        cases x <;> first | (simp [curFn, hc, hi] at hr; done) | skip
        next fi =>
        refine ⟨fi, by simp [currentFunc, hc, hi], ?_⟩
        rw [← result_cur ht hc hi]
        exact hr
  unfold resolveRet
  cases h1 with
  | retNone =>
    cases h2 with
    | retVoid hr =>
      obtain ⟨fi, h3, h4⟩ := cur hr
      rw [Act.ok_bind h3]
      simp only [h4]
      exact ⟨f, rfl, rfl⟩
  | ret hr' =>
    cases h2 with
    | ret hr he ha =>
      rw [hat] at he
      obtain ⟨fi, h3, h4⟩ := cur hr
      rw [Act.ok_bind h3]
      simp only
      rw [Act.check_bind (resolveE_complete ht he hr')]
      simp only [h4]
      rw [if_pos ((c36_assignable _ _).2 ha)]
      exact ⟨f, rfl, rfl⟩

mutual
theorem resolveS_complete : ∀ (s : CStmt) {f : Front} {s' : Stmt} {Γ' : TyEnv}, Tables f → DeclaresOwn s →
    ResolvedS f s s' → Checks (baseEnv f) (curFn f) s' Γ' → ∃ f', resolveS s f = .ok s' f' ∧ baseEnv f' = Γ'
  | .node line s, f, s', Γ', ht, ho, h1, h2 => by
    rw [resolveS]
    rw [DeclaresOwn] at ho
    cases h1 with
    | node h1 =>
      cases h2 with
      | node h2 =>
        obtain ⟨f', h3, h4⟩ := resolveS_complete s ht ho h1 h2
        exact ⟨f', by rw [Act.ok_bind h3]; rfl, h4⟩
  | .call callee args, f, s', Γ', ht, ho, h1, h2 => by
    rw [resolveS]
    cases h1 with
    | call h1 =>
      cases h2 with
      | call h2 =>
        rw [tyEnv_at ht] at h2
        rw [Act.check_bind (resolveE_complete ht h2 h1)]
        exact ⟨f, rfl, rfl⟩
  | .block ss, f, s', Γ', ht, ho, h1, h2 => by
    rw [resolveS]
    rw [DeclaresOwn] at ho
    have : ∃ ss', s' = .block ss' := by cases h1 <;> exact ⟨_, rfl⟩
    obtain ⟨ss', rfl⟩ := this
    obtain ⟨f', h3, h4⟩ := resolveSs_complete ss ht ho h1 h2
    exact ⟨f', by rw [Act.ok_bind h3]; rfl, h4⟩
  | .assign op ann l r, f, s', Γ', ht, ho, h1, h2 => by
    rw [resolveS]
    exact resolveAssign_complete ht ho h1 h2
  | .proc decl n ps r body, f, s', Γ', ht, ho, h1, h2 => by
    rw [resolveS]
    rw [DeclaresOwn] at ho
    cases h1 with
    | @proc _ _ _ _ _ _ b' fi hi h1 =>
      cases h2 with
      | proc _ h2 =>
        have hc : curFn { f with currFunc := .at decl } = some fi.index := by simp [curFn, hi]
        rw [← hc, ← baseEnv_enter f (.at decl)] at h2
        obtain ⟨f', h3, h4⟩ := resolveS_complete body (tables_enter ht (.at decl)) ho h1 h2
        refine ⟨{ f' with currFunc := f.currFunc }, ?_, by rw [baseEnv_enter, h4]⟩
        have e1 : (Act.get : Act Front Front) f = .ok f f := rfl
        rw [Act.ok_bind e1]
        rw [Act.ok_bind (x := Act.modify fun f => { f with currFunc := .at decl }) (s := f) rfl]
        rw [Act.check_bind (x := fun f => procInfo f decl) (a := (fi.index, fi.args.length, fi.locals.length))
          (by simp [procInfo, hi])]
        simp only
        rw [Act.ok_bind h3]
        rfl
  | .ifThen c b, f, s', Γ', ht, ho, h1, h2 => by
    rw [resolveS]
    rw [DeclaresOwn] at ho
    cases h1 with
    | ifThen h1 g1 =>
      cases h2 with
      | ifThen h2 g2 =>
        obtain ⟨f', h3, h4⟩ := resolveS_complete b ht ho g1 g2
        exact ⟨f', by rw [Act.ok_bind (resolveCond_complete ht h1 h2), Act.ok_bind h3]; rfl, h4⟩
  | .ifElse c b a, f, s', Γ', ht, ho, h1, h2 => by
    rw [resolveS]
    rw [DeclaresOwn] at ho
    cases h1 with
    | ifElse h1 g1 k1 =>
      cases h2 with
      | ifElse h2 g2 k2 =>
        obtain ⟨f', h3, rfl⟩ := resolveS_complete b ht ho.1 g1 g2
        have hl := (resolveS_has b ht ho.1 h3).like
        rw [← hl.curFn] at k2
        obtain ⟨f2, h5, h6⟩ := resolveS_complete a (hl.tables ht) ho.2 (Like.resolvedS k1 hl) k2
        exact ⟨f2, by rw [Act.ok_bind (resolveCond_complete ht h1 h2), Act.ok_bind h3, Act.ok_bind h5]; rfl, h6⟩
  | .while c b, f, s', Γ', ht, ho, h1, h2 => by
    rw [resolveS]
    rw [DeclaresOwn] at ho
    cases h1 with
    | «while» h1 g1 =>
      cases h2 with
      | «while» h2 g2 =>
        obtain ⟨f', h3, h4⟩ := resolveS_complete b ht ho g1 g2
        exact ⟨f', by rw [Act.ok_bind (resolveCond_complete ht h1 h2), Act.ok_bind h3]; rfl, h4⟩
  | .for i c s b, f, s', Γ', ht, ho, h1, h2 => by
    rw [resolveS]
    rw [DeclaresOwn] at ho
    cases h1 with
    | «for» a1 b1 c1 d1 =>
      cases h2 with
      | «for» a2 b2 c2 d2 =>
        obtain ⟨f1, h3, rfl⟩ := resolveS_complete i ht ho.1 a1 a2
        have l1 := (resolveS_has i ht ho.1 h3).like
        have t1 := l1.tables ht
        rw [← l1.curFn] at b2 c2
        obtain ⟨f2, h4, rfl⟩ := resolveS_complete s t1 ho.2.1 (Like.resolvedS c1 l1) c2
        have l2 := (resolveS_has s t1 ho.2.1 h4).like
        rw [← l1.curFn, ← l2.curFn] at d2
        obtain ⟨f3, h5, h6⟩ := resolveS_complete b (l2.tables t1) ho.2.2 (Like.resolvedS d1 (l1.trans l2)) d2
        exact ⟨f3, by rw [Act.ok_bind h3, Act.ok_bind (resolveCond_complete t1 (l1.resolved b1) b2), Act.ok_bind h4,
          Act.ok_bind h5]; rfl, h6⟩
  | .ret e, f, s', Γ', ht, ho, h1, h2 => by
    rw [resolveS]
    exact resolveRet_complete ht h1 h2
  | .brk, f, s', Γ', _, _, h1, h2 => by rw [resolveS]; cases h1; cases h2; exact ⟨f, rfl, rfl⟩
  | .cont, f, s', Γ', _, _, h1, h2 => by rw [resolveS]; cases h1; cases h2; exact ⟨f, rfl, rfl⟩
  | .use _ _ _, f, s', Γ', _, _, h1, h2 => by rw [resolveS]; cases h1; cases h2; exact ⟨f, rfl, rfl⟩
  | .struct _ _, f, s', Γ', _, _, h1, h2 => by rw [resolveS]; cases h1; cases h2; exact ⟨f, rfl, rfl⟩
theorem resolveSs_complete : ∀ (ss : List CStmt) {f : Front} {ss' : List Stmt} {Γ' : TyEnv}, Tables f → DeclareOwn ss →
    ResolvedS f (.block ss) (.block ss') → Checks (baseEnv f) (curFn f) (.block ss') Γ' →
    ∃ f', resolveSs ss f = .ok ss' f' ∧ baseEnv f' = Γ'
  | [], f, ss', Γ', _, _, h1, h2 => by rw [resolveSs]; cases h1; cases h2; exact ⟨f, rfl, rfl⟩
  | s :: ss, f, ss', Γ', ht, ho, h1, h2 => by
    rw [resolveSs]
    rw [DeclareOwn] at ho
    cases h1 with
    | cons h1 g1 =>
      cases h2 with
      | cons h2 g2 =>
        obtain ⟨f', h3, rfl⟩ := resolveS_complete s ht ho.1 h1 h2
        have hl := (resolveS_has s ht ho.1 h3).like
        rw [← hl.curFn] at g2
        obtain ⟨f2, h5, h6⟩ := resolveSs_complete ss (hl.tables ht) ho.2 (Like.resolvedS g1 hl) g2
        exact ⟨f2, by rw [Act.ok_bind h3, Act.ok_bind h5]; rfl, h6⟩
end

end Tiny
