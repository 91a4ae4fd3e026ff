import Verif.Proofs.NameSafe
import Verif.Proofs.GenTyped
import Verif.Props.HostMacro
import Verif.Spec.Clean

/-!
# Compiling does not crash
-/

namespace Tiny
open Spec

/-! ## Tables which differ in `initialized` only -/

/-- The same but for `initialized`. -/
def Marked (f f' : Front) : Prop := f'.syms.map unmarked = f.syms.map unmarked

theorem Marked.symm {f f' : Front} (h : Marked f f') : Marked f' f := Eq.symm h

theorem Marked.at {f f' : Front} (h : Marked f f') {i : Nat} {x : Sym} (hx : f.syms[i]? = some x) :
    ∃ y, f'.syms[i]? = some y ∧ unmarked x = unmarked y := by
  have e := congrArg (·[i]?) h
  simp only [List.getElem?_map, hx, Option.map_some] at e
  cases hy : f'.syms[i]? with
  | none => rw [hy] at e; cases e
  | some y => rw [hy] at e; exact ⟨y, rfl, by simpa using e.symm⟩

theorem unmarked_get {l m : List VarInfo} (h : l.map unmarkedVar = m.map unmarkedVar) {k : Nat} {v : VarInfo} (hv : l[k]? = some v) :
    ∃ w, m[k]? = some w ∧ w.idx = v.idx ∧ w.tag = v.tag := by
  have e := congrArg (·[k]?) h
  simp only [List.getElem?_map, hv, Option.map_some] at e
  cases hw : m[k]? with
  | none => rw [hw] at e; cases e
  | some w =>
    rw [hw] at e
    simp only [Option.map_some, Option.some.injEq] at e
    exact ⟨w, rfl, (congrArg VarInfo.idx e).symm, (congrArg VarInfo.tag e).symm⟩

theorem unmarkedVar_tag {v w : VarInfo} (h : unmarkedVar v = unmarkedVar w) : v.tag = w.tag := by
  have := congrArg VarInfo.tag h
  exact this

theorem unmarked_evolves {x y : Sym} (h : unmarked x = unmarked y) : Evolves x y := by
  cases x <;> cases y <;> simp only [unmarked, reduceCtorEq, Sym.glob.injEq, Sym.func.injEq] at h <;> simp only [Evolves]
  · exact ⟨_, rfl, (congrArg VarInfo.idx h).symm, fun e => by rw [← unmarkedVar_tag h]; exact e⟩
  · exact h.symm
  · rename_i a b
    refine ⟨_, rfl, fun k v hv => ?_, fun k v hv => ?_⟩
    · obtain ⟨w, h1, -, h2⟩ := unmarked_get (congrArg FuncInfo.args h) hv
      exact ⟨w, h1, by rw [h2]; exact id⟩
    · obtain ⟨w, h1, -, h2⟩ := unmarked_get (congrArg FuncInfo.locals h) hv
      exact ⟨w, h1, by rw [h2]; exact id⟩
  · exact h.symm
  · exact h.symm
  · cases h; exact ⟨_, _, rfl, id⟩
  · exact h.symm
  · exact h.symm

theorem filterMap_tags : ∀ {l m : List VarInfo}, l.map unmarkedVar = m.map unmarkedVar → l.filterMap VarInfo.tag = m.filterMap VarInfo.tag := by
  intro l m h
  have e : ∀ l : List VarInfo, l.filterMap VarInfo.tag = (l.map unmarkedVar).filterMap VarInfo.tag := by
    intro l; rw [List.filterMap_map]; rfl
  rw [e l, e m, h]

theorem unmarked_tags {x y : Sym} (h : unmarked x = unmarked y) : x.tags = y.tags ∧ (x.small → y.small) ∧ x.undefinedStruct = y.undefinedStruct := by
  cases x <;> cases y <;> simp only [unmarked, reduceCtorEq, Sym.glob.injEq, Sym.func.injEq] at h <;>
    try (cases h; exact ⟨rfl, id, rfl⟩)
  · exact ⟨by simp only [Sym.tags]; rw [unmarkedVar_tag h], id, rfl⟩
  · rename_i a b
    refine ⟨?_, id, rfl⟩
    simp only [Sym.tags]
    have hr : a.ret = b.ret := by
      have := congrArg FuncInfo.ret h
      exact this
    rw [List.filterMap_append, List.filterMap_append, filterMap_tags (congrArg FuncInfo.args h), filterMap_tags (congrArg FuncInfo.locals h), hr]

theorem Marked.after {f f' : Front} (h : Marked f f') : After f f' := fun i x hx => by
  obtain ⟨y, h1, h2⟩ := h.at hx
  exact ⟨y, h1, unmarked_evolves h2⟩

theorem Marked.types {f f' : Front} (h : Marked f f') (ht : TypesOk f) : TypesOk f' := by
  intro y hy
  obtain ⟨i, hi⟩ := List.mem_iff_getElem?.1 hy
  obtain ⟨x, hx, e⟩ := h.symm.at hi
  obtain ⟨e1, e2, -⟩ := unmarked_tags e.symm
  have := ht x (List.mem_of_getElem? hx)
  exact ⟨fun t hh => h.after.typ (this.1 t (by rw [e1]; exact hh)), e2 this.2⟩

theorem Marked.defined {f f' : Front} (h : Marked f f') (hd : AllDefined f) : AllDefined f' := by
  intro y hy
  obtain ⟨i, hi⟩ := List.mem_iff_getElem?.1 hy
  obtain ⟨x, hx, e⟩ := h.symm.at hi
  rw [← (unmarked_tags e.symm).2.2]
  exact hd x (List.mem_of_getElem? hx)

/-- All variables have a type. -/
def AllTyped (f : Front) : Prop := ∀ d, Normal d → tagOf f d ≠ none → TypedAt f d

theorem Marked.typed {f f' : Front} (h : Marked f f') (ht : AllTyped f) : AllTyped f' :=
  fun d hn hd => h.after.var (ht d hn (h.symm.after.held hd))

/-- Between the calls of the host. -/
structure Rest (f : Front) : Prop where
  tables : Tables f
  types : TypesOk f
  typed : AllTyped f
  cur : f.currFunc = .none

theorem Rest.marked {f f' : Front} (r : Rest f) (h : Marked f f') (ht : Tables f') (hc : f'.currFunc = .none) : Rest f' :=
  ⟨ht, h.types r.types, h.typed r.typed, hc⟩

theorem allDefined {f : Front} (h : AllStructsDefined f) : AllDefined f := by
  intro x hx
  cases x <;> try rfl
  rename_i n d fs
  simp [Sym.undefinedStruct, h n d fs hx]

/-- What a failed compilation leaves. -/
theorem marked_failed {s s' : TState} (h : Survives s s') (hl : s'.front.syms.length = s.front.syms.length) (hd : AllDefined s.front) :
    Marked s.front s'.front := by
  apply List.ext_getElem?
  intro i
  simp only [List.getElem?_map]
  by_cases hi : i < s.front.syms.length
  · obtain ⟨y, h1, k⟩ := h.syms i s.front.syms[i] (by simp [hi])
    rw [h1, List.getElem?_eq_getElem hi]
    simp only [Option.map_some, Option.some.injEq]
    have hd' := hd s.front.syms[i] (by simp)
    generalize s.front.syms[i] = x at k hd'
    have key : ∀ u, Stays (unmarked x) u → u = unmarked x := by
      intro u hu
      generalize hz : unmarked x = z at hu
      cases hu with
      | kept k' =>
        cases k' with
        | same => rfl
        | filled n fs more d =>
          cases x <;> simp only [unmarked, reduceCtorEq] at hz
          cases hz
          simp [Sym.undefinedStruct] at hd'
      | «opaque» n fs =>
        cases x <;> simp only [unmarked, reduceCtorEq] at hz
        cases hz
        simp [Sym.undefinedStruct] at hd'
    exact key _ k
  · rw [List.getElem?_eq_none (by omega), List.getElem?_eq_none (by omega)]

/-! ## Bindings -/

/-- What a macro leaves. -/
structure Told (f f' : Front) : Prop where
  le : FrontLe f f'
  var : ∀ d, TypedAt f d → TypedAt f' d
  typ : ∀ t, TagOk f t → TagOk f' t
  types : TypesOk f → TypesOk f'
  vars : KnownVars f f' []
  strings : f'.strings = f.strings

theorem Told.refl (f : Front) : Told f f := ⟨.refl f, fun _ => id, fun _ => id, id, fun _ _ h => .inl h, rfl⟩

theorem Told.trans {f g h : Front} (a : Told f g) (b : Told g h) : Told f h where
  le := a.le.trans b.le
  var := fun d hd => b.var d (a.var d hd)
  typ := fun t ht => b.typ t (a.typ t ht)
  types := fun ht => b.types (a.types ht)
  vars := fun d hn hd => by
    rcases b.vars d hn hd with h1 | h1 | h1
    · rcases a.vars d hn h1 with h2 | h2 | h2
      · exact .inl h2
      · simp at h2
      · exact .inr (.inr (b.var d h2))
    · simp at h1
    · exact .inr (.inr h1)
  strings := b.strings.trans a.strings

theorem Told.held {f f' : Front} (h : Told f f') {d : Place} (hd : tagOf f d ≠ none) : tagOf f' d ≠ none := by
  cases hx : tagOf f d with
  | none => exact absurd hx hd
  | some t => rw [tagOf_le h.le hx]; simp

theorem Told.fn {f f' : Front} (h : Told f f') {i : Nat} (hi : HasFn f i) : HasFn f' i := by
  obtain ⟨fi, hi⟩ := hi
  obtain ⟨fi', h1, -⟩ := le_func h.le hi
  exact ⟨fi', h1⟩

theorem prefix_frontLe {f f' : Front} (h : f.syms <+: f'.syms) : FrontLe f f' := by
  intro i x hx
  obtain ⟨C, e⟩ := h
  exact ⟨x, by rw [← e, List.getElem?_append_left (List.getElem?_eq_some_iff.1 hx).1]; exact hx, .same _⟩

/-- New symbols which are not variables nor functions of the source. -/
theorem told_append {f f' : Front} {C : List Sym} (h : f'.syms = f.syms ++ C) (hs : f'.strings = f.strings)
    (hC : ∀ x ∈ C, (∀ t ∈ x.tags, TagOk f t) ∧ x.small ∧ (∀ v, x ≠ .glob v) ∧ ∀ fi, x ≠ .func fi) : Told f f' := by
  have ha : After f f' := fun i x hx => ⟨x, by rw [h, List.getElem?_append_left (List.getElem?_eq_some_iff.1 hx).1]; exact hx, .refl x⟩
  refine ⟨prefix_frontLe ⟨C, h.symm⟩, fun d => ha.var, fun t => ha.typ, fun ht x hx => ?_, fun d hn hd => ?_, hs⟩
  · rw [h] at hx
    rcases List.mem_append.1 hx with hx | hx
    · exact ⟨fun t hh => ha.typ ((ht x hx).1 t hh), (ht x hx).2⟩
    · exact ⟨fun t hh => ha.typ ((hC x hx).1 t hh), (hC x hx).2.1⟩
  · refine .inl ?_
    rcases tagOf_cases hd with ⟨i, v, h1, h2⟩ | ⟨j, k, fi, v, rfl, h2, h3⟩
    · obtain ⟨c, r⟩ := d
      simp only at h1
      subst h1
      rw [h] at h2
      by_cases hi : i < f.syms.length
      · rw [List.getElem?_append_left hi] at h2
        simp [tagOf, tagIn, h2, Sym.core]
      · rw [List.getElem?_append_right (by omega)] at h2
        exact absurd rfl ((hC _ (List.mem_of_getElem? h2)).2.2.1 v)
    · rw [h] at h2
      by_cases hi : j < f.syms.length
      · rw [List.getElem?_append_left hi] at h2
        simp [tagOf, tagIn, h2, Sym.core, h3]
      · rw [List.getElem?_append_right (by omega)] at h2
        exact absurd rfl ((hC _ (List.mem_of_getElem? h2)).2.2.2 fi)

theorem Mentions.told {f f' : Front} (h : Mentions f f') (hs : f'.strings = f.strings) : Told f f' := by
  obtain ⟨C, hC, e⟩ := h.syms
  refine told_append e hs fun x hx => ?_
  rcases hC x hx with ⟨n, rfl⟩ | ⟨t, rfl⟩
  · exact ⟨by simp [Sym.tags], by simp [Sym.small], by simp, by simp⟩
  · exact ⟨by simp [Sym.tags], trivial, by simp, by simp⟩

theorem named_strings {n : Name} {f f' : Front} {r} (h : getTagFromName n f = .ok r f') : f'.strings = f.strings := by
  unfold getTagFromName at h
  cases hp : primTag n with
  | some t => rw [hp] at h; cases h; rfl
  | none =>
    rw [hp] at h
    simp only [act_bind, Act.get] at h
    cases hx : f.syms.findSome? (·.asType n) with
    | some t => rw [hx] at h; cases h; rfl
    | none => rw [hx] at h; cases h; rfl

theorem nullable_strings {t : Tag} {f f' : Front} {r} (h : makeNullable t f = .ok r f') : f'.strings = f.strings := by
  unfold makeNullable at h
  split at h
  · cases h
  · simp only [getOrCreateNullable, act_bind, Act.get] at h
    split at h <;> cases h <;> rfl

theorem told_type {ts : List Tk} {f : Front} {t : Tag} {q : PS Front} (h : parseType frontOps ⟨ts, f⟩ = .ok t q) :
    Told f q.st ∧ TagOk q.st t := by
  obtain ⟨ty, us, nx, rest, f', rfl, rfl, -, h4⟩ := type_sound frontOps h
  refine ⟨(mentions_type h4).1.told ?_, type_ok h4⟩
  unfold nameType at h4
  obtain ⟨x, f1, h1, h4⟩ := Act.ok_inv h4
  have e1 := named_strings h1
  split at h4
  · exact (nullable_strings h4).trans e1
  · cases h4; exact e1

theorem told_args : ∀ (n : Nat) {p : PS Front} {r : List Tag × Bool} {q : PS Front}, parseSigArgs n p = .ok r q →
    Told p.st q.st ∧ ∀ t ∈ r.1, TagOk q.st t
  | 0, p, r, q, h => by cases h
  | n + 1, ⟨ts, f⟩, r, q, h => by
    unfold parseSigArgs at h
    cases ts with
    | nil => cases h
    | cons t ts =>
      rw [cur_bind] at h
      by_cases h1 : t.kind = .closeParen
      · rw [if_pos h1] at h; cases h; exact ⟨.refl _, by simp⟩
      · rw [if_neg h1] at h
        by_cases h2 : t.kind = .comma
        · rw [if_pos h2] at h
          replace h := next_inv h
          obtain ⟨u, us, rfl, h⟩ := h
          have k := told_args n h
          exact k
        · rw [if_neg h2] at h
          by_cases h3 : t.kind = .ellipsis
          · rw [if_pos h3] at h
            replace h := next_inv h
            obtain ⟨u, us, rfl, h⟩ := h
            replace h := Act.ok_inv h
            obtain ⟨r', q', h4, h⟩ := h
            cases h
            have k := told_args n h4
            exact k
          · rw [if_neg h3] at h
            by_cases h4 : t.kind = .ident
            · rw [if_pos h4] at h
              obtain ⟨x, q1, h5, h⟩ := Act.ok_inv h
              obtain ⟨r', q', h6, h⟩ := Act.ok_inv h
              cases h
              obtain ⟨a1, a2⟩ := told_type h5
              obtain ⟨b1, b2⟩ := told_args n h6
              refine ⟨a1.trans b1, fun t ht => ?_⟩
              rcases List.mem_cons.1 ht with rfl | ht
              · exact b1.typ _ a2
              · exact b2 t ht
            · rw [if_neg h4] at h; cases h

theorem told_bindFunction {n : Name} {as : List Tag} {va : Bool} {r : Tag} {f f' : Front} (hr : TagOk f r)
    (h : bindFunction n as va r f = .ok () f') : Told f f' := by
  simp only [bindFunction, act_bind, Act.get] at h
  split at h
  · cases h
  · cases h
    exact told_append (C := [.foreign n f.numForeign as va r]) rfl rfl (by simp [Sym.tags, Sym.small, hr])

theorem lift_ok {α : Type} {x : Act Front α} {p q : PS Front} {a : α} (h : lift x p = .ok a q) : x p.st = .ok a q.st := by
  unfold lift at h
  cases hx : x p.st with
  | ok b s => rw [hx] at h; cases h; rfl
  | _ => rw [hx] at h; cases h

theorem told_sig {n : Nat} {p q : PS Front} (h : bindSig n p = .ok () q) : Told p.st q.st := by
  obtain ⟨ts, f⟩ := p
  unfold bindSig at h
  cases ts with
  | nil => cases h
  | cons t ts =>
    rw [cur_bind] at h
    by_cases h1 : t.kind = .ident
    · rw [if_pos h1] at h
      replace h := next_inv h
      obtain ⟨u, us, rfl, h⟩ := h
      rw [cur_bind] at h
      by_cases h2 : u.kind = .openParen
      · rw [if_pos h2] at h
        replace h := next_inv h
        obtain ⟨v, vs, rfl, h⟩ := h
        replace h := Act.ok_inv h
        obtain ⟨as, ⟨ws, f1⟩, h3, h⟩ := h
        obtain ⟨a1, a2⟩ := told_args n h3
        cases ws with
        | nil => cases h
        | cons w ws =>
        replace h := next_inv h
        obtain ⟨x, xs, rfl, h⟩ := h
        replace h := Act.ok_inv h
        obtain ⟨r, ⟨ys, f2⟩, h4, h⟩ := h
        have h5 : Told f1 f2 ∧ TagOk f2 r := by
          unfold parseSigRet at h4
          rw [cur_bind] at h4
          by_cases h5 : x.kind = .colon
          · rw [if_pos h5] at h4
            replace h4 := next_inv h4
            obtain ⟨y, ys, rfl, h4⟩ := h4
            rw [cur_bind] at h4
            by_cases h6 : y.kind = .ident
            · rw [if_pos h6] at h4; exact told_type h4
            · rw [if_neg h6] at h4; cases h4
          · rw [if_neg h5] at h4; cases h4; exact ⟨.refl _, trivial⟩
        exact (a1.trans h5.1).trans (told_bindFunction h5.2 (lift_ok h))
      · rw [if_neg h2] at h
        exact told_bindFunction (f := f) (r := .any) trivial (lift_ok h)
    · rw [if_neg h1] at h; cases h

theorem told_const {n : Name} {v : ConstVal} {f f' : Front} {r} (h : declareConst n (constTag v) v f = .ok r f') : Told f f' := by
  unfold declareConst at h
  obtain ⟨o, f1, h1, h⟩ := Act.ok_inv h
  rw [referenceVariable_state h1] at h
  cases o with
  | some _ => cases h
  | none =>
    cases h
    exact told_append (C := [.const n (constTag v) v]) rfl rfl (by simp [Sym.tags, Sym.small])

theorem told_module {n : Name} {f f' : Front} (h : bindMacro n f = .ok () f') : Told f f' := by
  simp only [bindMacro, act_bind, Act.get] at h
  split at h
  · cases h
  · cases h
    exact told_append (C := [.module n]) rfl rfl (by simp [Sym.tags, Sym.small])

theorem typedAt_of {f f' : Front} (h : ∀ (i : Nat) x, f.syms[i]? = some x → (∀ n fs, x ≠ .struct n false fs) → f'.syms[i]? = some x) {d : Place}
    (hd : TypedAt f d) : TypedAt f' d := by
  obtain ⟨c, r⟩ := d
  rcases typedAt_cases hd with ⟨i, h1, ⟨v, h2, h3⟩ | ⟨n, t, k, h2⟩⟩ | ⟨j, fi, h1, ⟨k, v, e, h2, h3⟩ | ⟨k, v, e, h2, h3⟩⟩
  · simp only at h1; subst h1
    exact typedAt_glob (h i _ h2 (by simp)) h3
  · simp only at h1; subst h1
    exact ⟨.const k, t, by simp only [symInfo, h i _ h2 (by simp)]⟩
  · cases e
    exact typedAt_loc (h j _ h1 (by simp)) h2 h3
  · cases e
    exact typedAt_arg (h j _ h1 (by simp)) h2 h3

theorem told_register {f f' : Front} {n : Name} (h : registerType n f = .ok () f') : Told f f' := by
  have hle := (hostCall_keeps (.register h)).le
  unfold registerType at h
  by_cases hp : (primTag n).isSome = true
  · rw [if_pos hp] at h; cases h; exact .refl _
  rw [if_neg hp] at h
  simp only [act_bind, Act.get] at h
  cases hx : f.syms.find? (fun x => (x.asType n).isSome) with
  | none =>
    rw [hx] at h
    cases h
    exact told_append (C := [.ftype n]) rfl rfl (by simp [Sym.tags, Sym.small])
  | some x =>
    rw [hx] at h
    by_cases hs : ∃ m fs, x = .struct m false fs
    · obtain ⟨m, fs, rfl⟩ := hs
      cases h
      obtain ⟨A, B, h1, h2, h3⟩ := convertType_split hx
      have keep : ∀ (i : Nat) x, f.syms[i]? = some x → (∀ n fs, x ≠ .struct n false fs) → (convertType n f.syms)[i]? = some x := by
        intro i x hi hn
        rw [h2]
        rw [h1] at hi
        by_cases hA : i < A.length
        · rw [List.getElem?_append_left hA] at hi ⊢; exact hi
        · rw [List.getElem?_append_right (by omega)] at hi ⊢
          cases hk : i - A.length with
          | zero => rw [hk] at hi; cases hi; exact absurd rfl (hn _ _)
          | succ k => rw [hk] at hi; exact hi
      have mem : ∀ x, x ∈ convertType n f.syms → x = .ftype n ∨ x ∈ f.syms := by
        intro x hx
        rw [h2] at hx
        rw [h1]
        simp only [List.mem_append, List.mem_cons] at hx ⊢
        tauto
      have typ : ∀ t, TagOk f t → TagOk { f with syms := convertType n f.syms } t := by
        intro t ht
        cases t <;> simp only [TagOk] at ht ⊢
        · rename_i k
          obtain ⟨x, hx', hk⟩ := ht
          rw [h1] at hx'
          simp only [List.mem_append, List.mem_cons] at hx'
          rw [h2]
          rcases hx' with hx' | rfl | hx'
          · exact ⟨x, by simp [hx'], hk⟩
          · exact ⟨.ftype n, by simp, by simpa [Sym.asType] using hk⟩
          · exact ⟨x, by simp [hx'], hk⟩
        · rename_i k
          obtain ⟨ha, x, hx', hk⟩ := ht
          have hne : k ≠ n := by
            rintro rfl
            unfold Front.hidden at ha
            rw [hx] at ha
            cases ha
          refine ⟨?_, ?_⟩
          · unfold Front.hidden at ha ⊢
            rw [h1] at ha
            simp only [h2]
            have hn1 : ((Sym.struct n false fs).asType k).isSome = false := by simp [Sym.asType, Ne.symm hne]
            have hn2 : ((Sym.ftype n).asType k).isSome = false := by simp [Sym.asType, Ne.symm hne]
            rw [List.find?_append, List.find?_cons] at ha ⊢
            rw [hn1] at ha
            rw [hn2]
            exact ha
          · rw [h1] at hx'
            simp only [List.mem_append, List.mem_cons] at hx'
            rw [h2]
            rcases hx' with hx' | rfl | hx'
            · exact ⟨x, by simp [hx'], hk⟩
            · simp [Sym.isStruct, Ne.symm hne] at hk
            · exact ⟨x, by simp [hx'], hk⟩
      refine ⟨hle, fun d => typedAt_of keep, typ, fun ht x hx' => ?_, fun d hn hd => .inl ?_, rfl⟩
      · rcases mem x hx' with rfl | hm
        · exact ⟨by simp [Sym.tags], trivial⟩
        · exact ⟨fun t hh => typ t ((ht x hm).1 t hh), (ht x hm).2⟩
      · have e : (convertType n f.syms).map Sym.core = f.syms.map Sym.core := by
          rw [h2, h1]; simp [Sym.core]
        unfold tagOf at hd ⊢
        rw [← e]
        exact hd
    · have : f' = f := by
        cases x with
        | struct m d fs =>
          cases d with
          | false => exact (hs ⟨m, fs, rfl⟩).elim
          | true => cases h; rfl
        | _ => cases h; rfl
      subst this
      exact .refl _

theorem told_binding {f f' : Front} (h : Binding f f') : Told f f' := by
  cases h with
  | function h => exact told_sig h
  | const h => exact told_const h
  | module h => exact told_module h
  | type h => exact told_register h

theorem told_bindings {f f' : Front} (h : Relation.ReflTransGen Binding f f') : Told f f' := by
  induction h with
  | refl => exact .refl _
  | tail _ h ih => exact ih.trans (told_binding h)

theorem Rest.told {f f' : Front} (r : Rest f) (h : Told f f') (ht : Tables f') (hc : f'.currFunc = .none) : Rest f' where
  tables := ht
  types := h.types r.types
  typed := fun d hn hd => by
    rcases h.vars d hn hd with h1 | h1 | h1
    · exact h.var d (r.typed d hn h1)
    · simp at h1
    · exact h1
  cur := hc

theorem Rest.register {f f' : Front} {n : Name} (r : Rest f) (h : registerType n f = .ok () f') : Rest f' := by
  obtain ⟨hT, hc⟩ := tables_register r.tables h
  exact r.told (told_register h) hT (hc.trans r.cur)

end Tiny
