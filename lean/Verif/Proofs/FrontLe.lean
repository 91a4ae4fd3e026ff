import Verif.Spec.Session
import Verif.Proofs.Rollback
import Verif.Proofs.Checked

/-!
# What a larger symbol table means
-/

namespace Tiny
open Spec

theorem _root_.Tiny.Spec.FrontLe.refl (f : Front) : FrontLe f f := fun _ x h => ⟨x, h, .same _⟩

theorem _root_.Tiny.Spec.FrontLe.trans {f g h : Front} (a : FrontLe f g) (b : FrontLe g h) : FrontLe f h := by
  intro i x hx
  obtain ⟨y, h1, k1⟩ := a i x hx
  obtain ⟨z, h2, k2⟩ := b i y h1
  exact ⟨z, h2, kept_unmarked_trans k1 k2⟩

/-- Marks do not matter. -/
theorem frontLe_mark {f g : Front} {l : List (Option Nat × VarSym)} (h : g.syms = f.syms.map (Sym.mark l)) : FrontLe f g := by
  intro i x hx
  refine ⟨x.mark l, by simp [h, hx], ?_⟩
  rw [mark_unmarked]
  exact .same _

theorem core_le {f f' : Front} (h : FrontLe f f') (i : Nat) {x : Sym} (hx : (f.syms.map Sym.core)[i]? = some x) :
    (f'.syms.map Sym.core)[i]? = some x := by
  rw [List.getElem?_map] at hx ⊢
  cases hy : f.syms[i]? with
  | none => rw [hy] at hx; cases hx
  | some y =>
    rw [hy] at hx
    obtain ⟨z, h1, k⟩ := h i y hy
    rw [h1]
    simp only [Option.map_some] at hx ⊢
    rw [kept_core k]
    exact hx

theorem tagOf_le {f f' : Front} (h : FrontLe f f') {d : Place} {t : Option Tag} (hd : tagOf f d = some t) :
    tagOf f' d = some t := by
  unfold tagOf at hd ⊢
  obtain ⟨c, r⟩ := d
  cases r with
  | glob i =>
    simp only [tagIn] at hd ⊢
    cases hx : (f.syms.map Sym.core)[i]? with
    | none => rw [hx] at hd; cases hd
    | some x => rw [core_le h i hx]; rw [hx] at hd; exact hd
  | loc k =>
    cases c with
    | «at» j =>
      simp only [tagIn] at hd ⊢
      cases hx : (f.syms.map Sym.core)[j]? with
      | none => rw [hx] at hd; cases hd
      | some x => rw [core_le h j hx]; rw [hx] at hd; exact hd
    | _ => cases hd
  | arg k => cases c <;> cases hd

/-! ## Searching -/

section
variable {R : Sym → Sym → Prop}

theorem find_le {p : Sym → Bool} (hp : ∀ x y, R x y → p y = p x) : ∀ {l l' : List Sym} {x : Sym},
    (∀ (i : Nat) x, l[i]? = some x → ∃ y, l'[i]? = some y ∧ R x y) → l.find? p = some x → ∃ y, l'.find? p = some y ∧ R x y
  | [], _, _, _, h => by cases h
  | a :: l, l', x, hr, h => by
    obtain ⟨b, hb, hab⟩ := hr 0 a rfl
    cases l' with
    | nil => cases hb
    | cons c l' =>
      simp only [List.getElem?_cons_zero, Option.some.injEq] at hb
      subst hb
      rw [List.find?_cons] at h ⊢
      rw [hp a c hab]
      cases hpa : p a with
      | true => rw [hpa] at h; cases h; exact ⟨c, rfl, hab⟩
      | false =>
        rw [hpa] at h
        exact find_le hp (fun i y hy => hr (i + 1) y hy) h

theorem findSome_le {β : Type} {g : Sym → Option β} {b : β} (hn : ∀ x y, R x y → g x = none → g y = none)
    (hs : ∀ x y, R x y → g x = some b → g y = some b) : ∀ {l l' : List Sym},
    (∀ (i : Nat) x, l[i]? = some x → ∃ y, l'[i]? = some y ∧ R x y) → l.findSome? g = some b → l'.findSome? g = some b
  | [], _, _, h => by cases h
  | a :: l, l', hr, h => by
    obtain ⟨c, hb, hab⟩ := hr 0 a rfl
    cases l' with
    | nil => cases hb
    | cons d l' =>
      simp only [List.getElem?_cons_zero, Option.some.injEq] at hb
      subst hb
      rw [List.findSome?_cons] at h ⊢
      cases hga : g a with
      | some b' =>
        rw [hga] at h
        cases h
        rw [hs a d hab hga]
      | none =>
        rw [hga] at h
        rw [hn a d hab hga]
        exact findSome_le hn hs (fun i y hy => hr (i + 1) y hy) h

end

theorem map_unmarkedVar_tag (l : List VarInfo) : (l.map unmarkedVar).map VarInfo.tag = l.map VarInfo.tag := by
  simp [Function.comp_def, unmarkedVar]

theorem typeAt_unmarked (i : Int) (l : List VarInfo) : typeAt i (l.map unmarkedVar) = typeAt i l := by
  unfold typeAt
  induction l with
  | nil => rfl
  | cons v l ih =>
    simp only [List.map_cons, List.find?_cons]
    by_cases h : v.idx = i
    · simp [unmarkedVar, h]
    · simp only [unmarkedVar, h, decide_false]
      exact ih

/-- The function, up to marks. -/
theorem kept_func' {fi : FuncInfo} {y : Sym} (h : Stays (unmarked (.func fi)) (unmarked y)) :
    ∃ fi', y = .func fi' ∧ fi'.name = fi.name ∧ fi'.index = fi.index ∧ fi'.ret = fi.ret ∧ funcVars fi' = funcVars fi ∧
      fi'.args.map VarInfo.tag = fi.args.map VarInfo.tag ∧ fi'.args.length = fi.args.length ∧
      fi'.locals.length = fi.locals.length := by
  generalize hz : unmarked y = z at h
  simp only [unmarked] at h
  generalize hq : Sym.func _ = q at h
  cases h with
  | «opaque» => cases hq
  | kept h =>
  subst hz
  cases y <;> simp only [unmarked] at h <;> cases h <;> try cases hq
  next fi' =>
  simp only [Sym.func.injEq] at hq
  have e1 := congrArg FuncInfo.name hq
  have e2 := congrArg FuncInfo.index hq
  have e3 := congrArg FuncInfo.ret hq
  have e4 := congrArg FuncInfo.args hq
  have e5 := congrArg FuncInfo.locals hq
  simp only at e1 e2 e3 e4 e5
  refine ⟨fi', rfl, e1.symm, e2.symm, e3.symm, ?_, ?_, ?_, ?_⟩
  · funext i
    unfold funcVars
    rw [← typeAt_unmarked i (fi'.args ++ _), ← typeAt_unmarked i (fi.args ++ _), List.map_append, List.map_append, e4, e5]
  · rw [← map_unmarkedVar_tag fi'.args, ← e4, map_unmarkedVar_tag]
  · have := congrArg List.length e4; simpa using this.symm
  · have := congrArg List.length e5; simpa using this.symm

theorem kept_glob {v : VarInfo} {y : Sym} (h : Stays (unmarked (.glob v)) (unmarked y)) :
    ∃ v', y = .glob v' ∧ v'.idx = v.idx ∧ v'.tag = v.tag := by
  generalize hz : unmarked y = z at h
  simp only [unmarked] at h
  generalize hq : Sym.glob _ = q at h
  cases h with
  | «opaque» => cases hq
  | kept h =>
  subst hz
  cases y <;> simp only [unmarked] at h <;> cases h <;> try cases hq
  next v' =>
  simp only [Sym.glob.injEq] at hq
  have e1 := congrArg VarInfo.idx hq
  have e2 := congrArg VarInfo.tag hq
  exact ⟨v', rfl, e1.symm, e2.symm⟩

/-- The kinds of symbols do not change, except for structs which turn out to be types of the host's. -/
theorem kept_kind {x y : Sym} (h : Stays (unmarked x) (unmarked y)) :
    (∃ v v', x = .glob v ∧ y = .glob v') ∨ (∃ f f', x = .func f ∧ y = .func f') ∨
    (∃ n d fs d' fs', x = .struct n d fs ∧ y = .struct n d' fs' ∧ (d = true → d' = true ∧ fs' = fs)) ∨
    (∃ n fs, x = .struct n false fs ∧ y = .ftype n) ∨
    y = x := by
  cases x with
  | glob v =>
    obtain ⟨v', rfl, -⟩ := kept_glob h
    exact .inl ⟨_, _, rfl, rfl⟩
  | func f =>
    obtain ⟨f', rfl, -⟩ := kept_func' h
    exact .inr (.inl ⟨_, _, rfl, rfl⟩)
  | struct n d fs =>
    generalize hz : unmarked y = z at h
    replace h : Stays (.struct n d fs) z := h
    cases h with
    | «opaque» => cases y <;> cases hz; exact .inr (.inr (.inr (.inl ⟨_, _, rfl, rfl⟩)))
    | kept h =>
    cases h <;> cases y <;> cases hz
    all_goals first
    | exact .inr (.inr (.inl ⟨_, _, _, _, _, rfl, rfl, fun e => ⟨e, rfl⟩⟩))
    | exact .inr (.inr (.inl ⟨_, _, _, _, _, rfl, rfl, fun e => by cases e⟩))
  | _ =>
    refine .inr (.inr (.inr (.inr ?_)))
    cases y <;> simp only [unmarked] at h <;> cases h <;> next h => cases h <;> rfl

theorem kept_isFunc {x y : Sym} (h : Stays (unmarked x) (unmarked y)) (n : Name) : y.isFunc n = x.isFunc n := by
  rcases kept_kind h with ⟨v, v', rfl, rfl⟩ | ⟨f, f', rfl, rfl⟩ | ⟨m, d, fs, d', fs', rfl, rfl, -⟩ | ⟨m, fs, rfl, rfl⟩ | rfl
  · rfl
  · obtain ⟨g, e, h1, -⟩ := kept_func' h
    cases e
    simp [Sym.isFunc, h1]
  · rfl
  · rfl
  · rfl

theorem kept_fnSym {x y : Sym} (h : Stays (unmarked x) (unmarked y)) : y.fnSym = x.fnSym := by
  rcases kept_kind h with ⟨v, v', rfl, rfl⟩ | ⟨f, f', rfl, rfl⟩ | ⟨m, d, fs, d', fs', rfl, rfl, -⟩ | ⟨m, fs, rfl, rfl⟩ | rfl
  · rfl
  · obtain ⟨g, e, -, h1, -⟩ := kept_func' h
    cases e
    simp [Sym.fnSym, h1]
  · rfl
  · rfl
  · rfl

theorem kept_symSig {x y : Sym} (h : Stays (unmarked x) (unmarked y)) : symSig y = symSig x := by
  rcases kept_kind h with ⟨v, v', rfl, rfl⟩ | ⟨f, f', rfl, rfl⟩ | ⟨m, d, fs, d', fs', rfl, rfl, -⟩ | ⟨m, fs, rfl, rfl⟩ | rfl
  · rfl
  · obtain ⟨g, e, -, h1, h2, -, h3, -⟩ := kept_func' h
    cases e
    simp [symSig, Sym.fnSym, Sym.sig, h1, h2, h3]
  · rfl
  · rfl
  · rfl

theorem structInfo_none {x y : Sym} (h : Stays (unmarked x) (unmarked y)) (n : Name) (hx : x.structInfo n = none) :
    y.structInfo n = none := by
  rcases kept_kind h with ⟨v, v', rfl, rfl⟩ | ⟨f, f', rfl, rfl⟩ | ⟨m, d, fs, d', fs', rfl, rfl, -⟩ | ⟨m, fs, rfl, rfl⟩ | rfl
  · rfl
  · rfl
  · by_cases e : m = n
    · simp [Sym.structInfo, e] at hx
    · simp [Sym.structInfo, e]
  · rfl
  · exact hx

theorem structInfo_true {x y : Sym} (h : Stays (unmarked x) (unmarked y)) (n : Name) {fs : List (Name × Tag)}
    (hx : x.structInfo n = some (true, fs)) : y.structInfo n = some (true, fs) := by
  rcases kept_kind h with ⟨v, v', rfl, rfl⟩ | ⟨f, f', rfl, rfl⟩ | ⟨m, d, gs, d', fs', rfl, rfl, hd⟩ | ⟨m, gs, rfl, rfl⟩ | rfl
  · cases hx
  · cases hx
  · by_cases e : m = n
    · simp only [Sym.structInfo, e, if_true, Option.some.injEq, Prod.mk.injEq] at hx ⊢
      obtain ⟨rfl, rfl⟩ := hd hx.1
      exact ⟨rfl, hx.2⟩
    · simp [Sym.structInfo, e] at hx
  · simp [Sym.structInfo] at hx
  · exact hx

theorem structs_le {f f' : Front} (h : FrontLe f f') (n : Name) (fs : List (Name × Tag))
    (hs : f.syms.findSome? (·.structInfo n) = some (true, fs)) : f'.syms.findSome? (·.structInfo n) = some (true, fs) :=
  findSome_le (R := fun x y => Stays (unmarked x) (unmarked y)) (fun _ _ k hx => structInfo_none k n hx)
    (fun _ _ k hx => structInfo_true k n hx) h hs

theorem function_le {f f' : Front} (h : FrontLe f f') {n : Name} {x : Sym} (hx : referenceFunction f.syms n = some x) :
    ∃ y, referenceFunction f'.syms n = some y ∧ Stays (unmarked x) (unmarked y) :=
  find_le (R := fun x y => Stays (unmarked x) (unmarked y)) (fun _ _ k => kept_isFunc k n) h hx

theorem globals_le {f f' : Front} (h : FrontLe f f') : GlobalsLe (globalsOf f) (globalsOf f') where
  structs := fun n fs hs => by
    simp only [globalsOf] at hs ⊢
    split at hs
    · next fs' e =>
      cases hs
      rw [structs_le h n _ e]
    · cases hs
  funcs := fun n g hg => by
    simp only [globalsOf] at hg ⊢
    obtain ⟨x, hx, e⟩ := Option.bind_eq_some_iff.1 hg
    obtain ⟨y, hy, k⟩ := function_le h hx
    rw [hy]
    simp only [Option.bind_some, kept_fnSym k, e]

/-! ## Types -/

/-- Everything with a type keeps it. -/
structure _root_.Tiny.Spec.TyMore (Γ Γ' : TyEnv) : Prop where
  var : ∀ s t, Γ.var s = some t → Γ'.var s = some t
  func : ∀ n v, Γ.func n = some v → Γ'.func n = some v
  fields : ∀ n v, Γ.fields n = some v → Γ'.fields n = some v
  hidden : ∀ n v, Γ.fields n = some v → Γ'.hidden n = Γ.hidden n
  body : ∀ n L r, Γ.body n = some (L, r) → ∃ L', Γ'.body n = some (L', r) ∧ ∀ j t, L j = some t → L' j = some t
  get : Γ'.getIndex = Γ.getIndex
  set : Γ'.setIndex = Γ.setIndex

theorem _root_.Tiny.Spec.TyMore.refl (Γ : TyEnv) : TyMore Γ Γ :=
  ⟨fun _ _ h => h, fun _ _ h => h, fun _ _ h => h, fun _ _ _ => rfl, fun _ L _ h => ⟨L, h, fun _ _ h => h⟩, rfl, rfl⟩

theorem _root_.Tiny.Spec.TyMore.trans {Γ Δ Θ : TyEnv} (h : TyMore Γ Δ) (k : TyMore Δ Θ) : TyMore Γ Θ where
  var := fun s t hs => k.var s t (h.var s t hs)
  func := fun s t hs => k.func s t (h.func s t hs)
  fields := fun s t hs => k.fields s t (h.fields s t hs)
  hidden := fun s t hs => (k.hidden s t (h.fields s t hs)).trans (h.hidden s t hs)
  get := k.get.trans h.get
  set := k.set.trans h.set
  body := fun i L r hb => by
    obtain ⟨L', h1, h2⟩ := h.body i L r hb
    obtain ⟨L'', h3, h4⟩ := k.body i L' r h1
    exact ⟨L'', h3, fun j t hj => h4 j t (h2 j t hj)⟩

theorem _root_.Tiny.Spec.TyLe.more {Γ Γ' : TyEnv} (h : TyLe Γ Γ') : TyMore Γ Γ' where
  var := h.var
  func := fun _ _ hs => by rw [h.func]; exact hs
  fields := fun _ _ hs => by rw [h.fields]; exact hs
  hidden := fun _ _ _ => by rw [h.hidden]
  get := h.get
  set := h.set
  body := h.body

theorem hidden_le {f f' : Front} (h : FrontLe f f') {n : Name} {fs : List (Name × Tag)} (hv : (baseEnv f).fields n = some fs) :
    f'.hidden n = f.hidden n := by
  replace hv : (match f.syms.findSome? (·.structInfo n) with | some (true, fs) => some fs | _ => none) = some fs := hv
  have hs : f.syms.findSome? (·.structInfo n) = some (true, fs) := by
    split at hv
    · next e => cases hv; exact e
    · cases hv
  have hR : ∀ x y : Sym, Stays (unmarked x) (unmarked y) → (y.asType n).isSome = (x.asType n).isSome := by
    intro x y k
    rcases kept_kind k with ⟨v, v', rfl, rfl⟩ | ⟨f, f', rfl, rfl⟩ | ⟨m, d, fs, d', fs', rfl, rfl, -⟩ | ⟨m, fs, rfl, rfl⟩ | rfl <;> rfl
  unfold Front.hidden
  cases hx : f.syms.find? (fun x => (x.asType n).isSome) with
  | none =>
    exfalso
    rw [List.findSome?_eq_some_iff] at hs
    obtain ⟨A, x, B, e, h1, -⟩ := hs
    rw [List.find?_eq_none] at hx
    have := hx x (by rw [e]; simp)
    cases x <;> simp [Sym.structInfo] at h1
    simp [Sym.asType, h1] at this
  | some x =>
    obtain ⟨y, hy, k⟩ := find_le (R := fun x y => Stays (unmarked x) (unmarked y)) hR h hx
    rw [hy]
    rcases kept_kind k with ⟨v, v', rfl, rfl⟩ | ⟨f, f', rfl, rfl⟩ | ⟨m, d, fs, d', fs', rfl, rfl, -⟩ | ⟨m, gs, rfl, rfl⟩ | rfl
    · rfl
    · rfl
    · rfl
    · exfalso
      obtain ⟨h1, A, B, e, h2⟩ := List.find?_eq_some_iff_append.1 hx
      have hA : A.findSome? (·.structInfo n) = none := by
        rw [List.findSome?_eq_none_iff]
        intro z hz
        have := h2 z hz
        cases z <;> simp_all [Sym.asType, Sym.structInfo]
      rw [e, List.findSome?_append, hA, List.findSome?_cons] at hs
      simp only [Sym.asType] at h1
      split at h1
      · next e => simp [Sym.structInfo, e] at hs
      · cases h1
    · rfl

theorem baseEnv_le {f f' : Front} (h : FrontLe f f') : TyMore (baseEnv f) (baseEnv f') where
  var := fun s t hs => by
    cases s with
    | const c => exact hs
    | loc i => cases hs
    | glob i =>
      replace hs : typeAt i (f.syms.filterMap globVar) = some t := hs
      show typeAt i (f'.syms.filterMap globVar) = some t
      unfold typeAt at hs ⊢
      rw [List.find?_filterMap] at hs ⊢
      obtain ⟨v, hv, e⟩ := Option.bind_eq_some_iff.1 hs
      obtain ⟨x, hx, e2⟩ := Option.bind_eq_some_iff.1 hv
      obtain ⟨y, hy, k⟩ := find_le (R := fun x y => Stays (unmarked x) (unmarked y)) (fun x y k => by
        rcases kept_kind k with ⟨v, v', rfl, rfl⟩ | ⟨f, f', rfl, rfl⟩ | ⟨m, d, fs, d', fs', rfl, rfl, -⟩ | ⟨m, fs, rfl, rfl⟩ | rfl
        · obtain ⟨v2, e, h1, -⟩ := kept_glob k
          cases e
          simp [globVar, h1]
        · rfl
        · rfl
        · rfl
        · rfl) h hx
      rw [hy]
      cases x <;> simp only [globVar, reduceCtorEq, Option.some.injEq] at e2
      subst e2
      obtain ⟨v2, rfl, h1, h2⟩ := kept_glob k
      simp [globVar, h2, e]
  func := fun n v hv => by
    replace hv : (referenceFunction f.syms n).bind symSig = some v := hv
    show (referenceFunction f'.syms n).bind symSig = some v
    obtain ⟨x, hx, e⟩ := Option.bind_eq_some_iff.1 hv
    obtain ⟨y, hy, k⟩ := function_le h hx
    rw [hy]
    simp only [Option.bind_some, kept_symSig k, e]
  fields := fun n v hv => (globals_le h).structs n v hv
  hidden := fun n v hv => hidden_le h hv
  body := fun n L r hv => by
    refine ⟨L, ?_, fun _ _ h => h⟩
    generalize (L, r) = v at hv ⊢
    replace hv : (match (f.syms.filterMap funcInfo).find? (·.index = n) with
      | some fi => fi.ret.map fun r => (funcVars fi, r)
      | none => none) = some v := hv
    show (match (f'.syms.filterMap funcInfo).find? (·.index = n) with
      | some fi => fi.ret.map fun r => (funcVars fi, r)
      | none => none) = some v
    rw [List.find?_filterMap] at hv ⊢
    cases hx : f.syms.find? (fun a => Option.any (fun x => decide (x.index = n)) (funcInfo a)) with
    | none => rw [hx] at hv; cases hv
    | some x =>
      rw [hx] at hv
      obtain ⟨y, hy, k⟩ := find_le (R := fun x y => Stays (unmarked x) (unmarked y)) (fun x y k => by
        rcases kept_kind k with ⟨v, v', rfl, rfl⟩ | ⟨f, f', rfl, rfl⟩ | ⟨m, d, fs, d', fs', rfl, rfl, -⟩ | ⟨m, fs, rfl, rfl⟩ | rfl
        · rfl
        · obtain ⟨v2, e, -, h1, -⟩ := kept_func' k
          cases e
          simp [funcInfo, h1]
        · rfl
        · rfl
        · rfl) h hx
      rw [hy]
      cases x <;> simp only [funcInfo, Option.bind_some, Option.bind_none, reduceCtorEq] at hv
      obtain ⟨v2, rfl, -, -, h2, h3, -⟩ := kept_func' k
      simp only [funcInfo, Option.bind_some, h2, h3]
      exact hv
  get := rfl
  set := rfl

theorem _root_.Tiny.Spec.TyMore.enter {Γ Γ' : TyEnv} (h : TyMore Γ Γ') {L L' : Int → Option Tag}
    (hL : ∀ j t, L j = some t → L' j = some t) : TyMore (Γ.enter L) (Γ'.enter L') where
  var := fun s t hs => by
    cases s with
    | glob i => exact h.var _ _ hs
    | const c => exact h.var _ _ hs
    | loc i => exact hL _ _ hs
  func := h.func
  fields := h.fields
  hidden := h.hidden
  body := h.body
  get := h.get
  set := h.set

theorem _root_.Tiny.Spec.TyMore.tag {Γ Γ' : TyEnv} (h : TyMore Γ Γ') {n : Name} {fs : List (Name × Tag)} (hf : Γ.fields n = some fs) :
    Γ'.structTag n = Γ.structTag n := by
  unfold TyEnv.structTag
  rw [h.hidden n fs hf]

theorem _root_.Tiny.Spec.HasType.more {Γ Γ' : TyEnv} (h : TyMore Γ Γ') (hs : SameSetters Γ Γ') {e : Expr} {t : Tag}
    (he : HasType Γ e t) : HasType Γ' e t := by
  induction he with
  | null => exact .null
  | bool => exact .bool
  | int => exact .int
  | char => exact .char
  | float => exact .float
  | str => exact .str
  | id hv => exact .id (h.var _ _ hv)
  | paren _ ih => exact .paren ih
  | bin _ _ ho ih1 ih2 => exact .bin ih1 ih2 ho
  | un _ ho ih => exact .un ih ho
  | call h1 h2 _ h4 h5 ih => exact .call (h.func _ _ h1) h2 ih h4 h5
  | dot _ h1 h2 ih =>
    rw [← h.tag h1] at ih ⊢
    exact .dot ih (h.fields _ _ h1) h2
  | index _ _ h1 h2 ih1 ih2 =>
    exact .index ih1 ih2 (by rw [h.get]; exact h.func _ _ h1) (by rw [h.set, hs _ _ h1]; exact h2)
  | ctor h1 h2 _ h4 h5 ih => rw [← h.tag h1]; exact .ctor (h.fields _ _ h1) h2 ih h4 h5
  | ctorNamed h1 h2 h3 _ h4 h5 h6 ih => rw [← h.tag h1]; exact .ctorNamed (h.fields _ _ h1) h2 h3 ih h4 h5 h6
  | cast _ h1 ih => exact .cast ih h1
  | ite _ _ _ ih1 ih2 ih3 => exact .ite ih1 ih2 ih3

theorem _root_.Tiny.Spec.Checked.more {Γ : TyEnv} {ret : Option Tag} {s : Stmt} (hc : Checked Γ ret s) :
    ∀ {Γ'}, TyMore Γ Γ' → SameSetters Γ Γ' → Checked Γ' ret s := by
  induction hc with
  | node _ ih => exact fun h k => .node (ih h k)
  | call h1 => exact fun h k => .call (h1.more h k)
  | block _ ih => exact fun h k => .block fun s hs => ih s hs h k
  | declare h1 h2 h3 => exact fun h k => .declare (h.var _ _ h1) (h2.more h k) h3
  | assign h1 h2 h3 h4 => exact fun h k => .assign h1 (h2.more h k) (h3.more h k) h4
  | other h1 h2 h3 => exact fun h k => .other h1 h2 (h3.more h k)
  | proc h1 _ ih =>
    intro Γ' h k
    obtain ⟨L', h2, h3⟩ := h.body _ _ _ h1
    exact .proc h2 (ih (h.enter h3) k)
  | ifThen h1 _ ih => exact fun h k => .ifThen (h1.more h k) (ih h k)
  | ifElse h1 _ _ ih1 ih2 => exact fun h k => .ifElse (h1.more h k) (ih1 h k) (ih2 h k)
  | «while» h1 _ ih => exact fun h k => .while (h1.more h k) (ih h k)
  | «for» _ h1 _ _ ih1 ih2 ih3 => exact fun h k => .for (ih1 h k) (h1.more h k) (ih2 h k) (ih3 h k)
  | retVoid => exact fun _ _ => .retVoid
  | ret h1 h2 => exact fun h k => .ret (h1.more h k) h2
  | brk => exact fun _ _ => .brk
  | cont => exact fun _ _ => .cont
  | use => exact fun _ _ => .use

end Tiny
