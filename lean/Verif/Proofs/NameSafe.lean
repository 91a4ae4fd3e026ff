import Verif.Spec.Crash
import Verif.Proofs.CheckSafe
import Verif.Proofs.Declares

/-!
# What the parser leaves for the type checker

The trees it makes read only variables whose type is known or will be known.
-/

namespace Tiny
open Spec

/-! ## The table only grows -/

/-- What can happen to a symbol while a source is read. -/
def Evolves : Sym → Sym → Prop
  | .glob v, y => ∃ w, y = .glob w ∧ w.idx = v.idx ∧ (v.tag.isSome = true → w.tag.isSome = true)
  | .func fi, y => ∃ fj, y = .func fj ∧
      (∀ (k : Nat) v, fi.args[k]? = some v → ∃ w, fj.args[k]? = some w ∧ (v.tag.isSome = true → w.tag.isSome = true)) ∧
      (∀ (k : Nat) v, fi.locals[k]? = some v → ∃ w, fj.locals[k]? = some w ∧ (v.tag.isSome = true → w.tag.isSome = true))
  | .struct n d _, y => ∃ d' fs, y = .struct n d' fs ∧ (d = true → d' = true)
  | x, y => y = x

theorem Evolves.refl (x : Sym) : Evolves x x := by
  cases x <;> simp only [Evolves]
  · exact ⟨_, rfl, rfl, id⟩
  · exact ⟨_, rfl, fun k v h => ⟨v, h, id⟩, fun k v h => ⟨v, h, id⟩⟩
  · exact ⟨_, _, rfl, id⟩

theorem Evolves.trans {x y z : Sym} (a : Evolves x y) (b : Evolves y z) : Evolves x z := by
  cases x <;> simp only [Evolves] at a
  · obtain ⟨w, rfl, h1, h2⟩ := a
    simp only [Evolves] at b ⊢
    obtain ⟨u, rfl, h3, h4⟩ := b
    exact ⟨u, rfl, h3.trans h1, fun h => h4 (h2 h)⟩
  · subst a; exact b
  · obtain ⟨w, rfl, h1, h2⟩ := a
    simp only [Evolves] at b ⊢
    obtain ⟨u, rfl, h3, h4⟩ := b
    refine ⟨u, rfl, fun k v h => ?_, fun k v h => ?_⟩
    · obtain ⟨v', h, e⟩ := h1 k v h
      obtain ⟨v'', h, e'⟩ := h3 k v' h
      exact ⟨v'', h, fun x => e' (e x)⟩
    · obtain ⟨v', h, e⟩ := h2 k v h
      obtain ⟨v'', h, e'⟩ := h4 k v' h
      exact ⟨v'', h, fun x => e' (e x)⟩
  · subst a; exact b
  · subst a; exact b
  · obtain ⟨d, fs, rfl, h1⟩ := a
    simp only [Evolves] at b ⊢
    obtain ⟨d', fs', rfl, h2⟩ := b
    exact ⟨_, _, rfl, fun h => h2 (h1 h)⟩
  · subst a; exact b
  · subst a; exact b

/-- The symbols are still there. -/
def After (f f' : Front) : Prop := ∀ (i : Nat) x, f.syms[i]? = some x → ∃ y, f'.syms[i]? = some y ∧ Evolves x y

theorem After.refl (f : Front) : After f f := fun _ x h => ⟨x, h, .refl x⟩

theorem After.trans {f g h : Front} (a : After f g) (b : After g h) : After f h := fun i x hx => by
  obtain ⟨y, hy, e⟩ := a i x hx
  obtain ⟨z, hz, e'⟩ := b i y hy
  exact ⟨z, hz, e.trans e'⟩

theorem Evolves.asType {x y : Sym} (h : Evolves x y) (n : Name) : y.asType n = x.asType n := by
  cases x <;> simp only [Evolves] at h
  · obtain ⟨w, rfl, -⟩ := h; rfl
  · subst h; rfl
  · obtain ⟨w, rfl, -⟩ := h; rfl
  · subst h; rfl
  · subst h; rfl
  · obtain ⟨d, fs, rfl, -⟩ := h; rfl
  · subst h; rfl
  · subst h; rfl

theorem Evolves.isStruct {x y : Sym} (h : Evolves x y) (n : Name) : y.isStruct n = x.isStruct n := by
  cases x <;> simp only [Evolves] at h
  · obtain ⟨w, rfl, -⟩ := h; rfl
  · subst h; rfl
  · obtain ⟨w, rfl, -⟩ := h; rfl
  · subst h; rfl
  · subst h; rfl
  · obtain ⟨d, fs, rfl, -⟩ := h; rfl
  · subst h; rfl
  · subst h; rfl

theorem After.any {f f' : Front} (h : After f f') {p : Sym → Prop} (hp : ∀ x y, Evolves x y → p x → p y) (he : ∃ x ∈ f.syms, p x) :
    ∃ x ∈ f'.syms, p x := by
  obtain ⟨x, hx, px⟩ := he
  obtain ⟨i, hi⟩ := List.mem_iff_getElem?.1 hx
  obtain ⟨y, hy, e⟩ := h i x hi
  exact ⟨y, List.mem_of_getElem? hy, hp x y e px⟩

theorem After.str {f f' : Front} (h : After f f') {n : Name} (hn : ∃ x ∈ f.syms, x.isStruct n = true) : ∃ x ∈ f'.syms, x.isStruct n = true :=
  h.any (fun x y e hx => by rw [e.isStruct]; exact hx) hn

theorem After.hidden {f f' : Front} (h : After f f') {n : Name} (hn : f.hidden n = true) : f'.hidden n = true := by
  unfold Front.hidden at hn ⊢
  cases hf : f.syms.find? (fun x => (x.asType n).isSome) with
  | none => rw [hf] at hn; cases hn
  | some x =>
    rw [hf] at hn
    cases x <;> simp only [Bool.false_eq_true] at hn
    rename_i m
    obtain ⟨hp, i, hi, e, hl⟩ := List.find?_eq_some_iff_getElem.1 hf
    have hi' : f.syms[i]? = some (.ftype m) := by rw [List.getElem?_eq_getElem hi, e]
    obtain ⟨y, hy, hev⟩ := h i _ hi'
    simp only [Evolves] at hev
    subst hev
    obtain ⟨hiy, ey⟩ := List.getElem?_eq_some_iff.1 hy
    have : f'.syms.find? (fun x => (x.asType n).isSome) = some (.ftype m) := by
      rw [List.find?_eq_some_iff_getElem]
      refine ⟨hp, i, hiy, ey, fun j hj => ?_⟩
      have hj' : j < f.syms.length := by omega
      obtain ⟨z, hz, hev⟩ := h j _ (List.getElem?_eq_getElem hj')
      have := hl j hj
      rw [← hev.asType] at this
      rwa [(List.getElem?_eq_some_iff.1 hz).2]
    rw [this]

theorem After.typ {f f' : Front} (h : After f f') {t : Tag} (ht : TagOk f t) : TagOk f' t := by
  cases t <;> simp only [TagOk] at ht ⊢
  · exact h.any (fun x y e hx => by rw [e.asType]; exact hx) ht
  · exact ⟨h.hidden ht.1, h.str ht.2⟩

theorem After.fn {f f' : Front} (h : After f f') {i : Nat} (hi : HasFn f i) : HasFn f' i := by
  obtain ⟨fi, hf⟩ := hi
  obtain ⟨y, hy, e⟩ := h i _ hf
  simp only [Evolves] at e
  obtain ⟨fj, rfl, -⟩ := e
  exact ⟨fj, hy⟩

theorem After.held {f f' : Front} (h : After f f') {d : Place} (hd : tagOf f d ≠ none) : tagOf f' d ≠ none := by
  rcases tagOf_cases hd with ⟨i, v, h1, h2⟩ | ⟨j, k, fi, v, rfl, h2, h3⟩
  · obtain ⟨c, r⟩ := d
    simp only at h1
    subst h1
    obtain ⟨y, hy, e⟩ := h i _ h2
    simp only [Evolves] at e
    obtain ⟨w, rfl, -⟩ := e
    rw [tagAt_glob hy]; simp
  · obtain ⟨y, hy, e⟩ := h j _ h2
    simp only [Evolves] at e
    obtain ⟨fj, rfl, -, h4⟩ := e
    obtain ⟨w, hw, -⟩ := h4 k v h3
    rw [tagAt_loc hy hw]; simp

theorem typedAt_glob {f : Front} {c : Cur} {i : Nat} {v : VarInfo} (h : f.syms[i]? = some (.glob v)) (ht : v.tag.isSome = true) :
    TypedAt f (c, .glob i) := by
  obtain ⟨t, ht⟩ := Option.isSome_iff_exists.1 ht
  exact ⟨.glob v.idx.toNat, t, by simp [symInfo, h, ht]⟩

theorem typedAt_loc {f : Front} {j k : Nat} {fi : FuncInfo} {v : VarInfo} (h : f.syms[j]? = some (.func fi)) (hk : fi.locals[k]? = some v)
    (ht : v.tag.isSome = true) : TypedAt f (.at j, .loc k) := by
  obtain ⟨t, ht⟩ := Option.isSome_iff_exists.1 ht
  exact ⟨.loc v.idx, t, by simp [symInfo, h, hk, ht]⟩

theorem typedAt_arg {f : Front} {j k : Nat} {fi : FuncInfo} {v : VarInfo} (h : f.syms[j]? = some (.func fi)) (hk : fi.args[k]? = some v)
    (ht : v.tag.isSome = true) : TypedAt f (.at j, .arg k) := by
  obtain ⟨t, ht⟩ := Option.isSome_iff_exists.1 ht
  exact ⟨.loc v.idx, t, by simp [symInfo, h, hk, ht]⟩

theorem typedAt_cases {f : Front} {d : Place} (h : TypedAt f d) :
    (∃ i, d.2 = .glob i ∧ ((∃ v, f.syms[i]? = some (.glob v) ∧ v.tag.isSome = true) ∨ ∃ n t c, f.syms[i]? = some (.const n t c))) ∨
    ∃ j fi, f.syms[j]? = some (.func fi) ∧ ((∃ k v, d = (.at j, .loc k) ∧ fi.locals[k]? = some v ∧ v.tag.isSome = true) ∨
      ∃ k v, d = (.at j, .arg k) ∧ fi.args[k]? = some v ∧ v.tag.isSome = true) := by
  obtain ⟨s, t, e⟩ := h
  obtain ⟨c, r⟩ := d
  cases r with
  | glob i =>
    refine .inl ⟨i, rfl, ?_⟩
    simp only [symInfo] at e
    cases hx : f.syms[i]? with
    | none => rw [hx] at e; cases e
    | some x =>
      rw [hx] at e
      cases x <;> simp only [reduceCtorEq, Chk.ok.injEq, Prod.mk.injEq] at e
      · exact .inl ⟨_, rfl, by rw [e.2]; rfl⟩
      · exact .inr ⟨_, _, _, rfl⟩
  | loc k =>
    simp only [symInfo] at e
    cases c <;> simp only [reduceCtorEq] at e
    rename_i j
    cases hx : f.syms[j]? with
    | none => rw [hx] at e; cases e
    | some x =>
      rw [hx] at e
      cases x <;> simp only [reduceCtorEq] at e
      rename_i fi
      cases hk : fi.locals[k]? with
      | none => rw [hk] at e; cases e
      | some v =>
        rw [hk] at e
        simp only [Chk.ok.injEq, Prod.mk.injEq] at e
        exact .inr ⟨j, fi, hx, .inl ⟨k, v, rfl, hk, by rw [e.2]; rfl⟩⟩
  | arg k =>
    simp only [symInfo] at e
    cases c <;> simp only [reduceCtorEq] at e
    rename_i j
    cases hx : f.syms[j]? with
    | none => rw [hx] at e; cases e
    | some x =>
      rw [hx] at e
      cases x <;> simp only [reduceCtorEq] at e
      rename_i fi
      cases hk : fi.args[k]? with
      | none => rw [hk] at e; cases e
      | some v =>
        rw [hk] at e
        simp only [Chk.ok.injEq, Prod.mk.injEq] at e
        exact .inr ⟨j, fi, hx, .inr ⟨k, v, rfl, hk, by rw [e.2]; rfl⟩⟩

theorem After.var {f f' : Front} (h : After f f') {d : Place} (hd : TypedAt f d) : TypedAt f' d := by
  rcases typedAt_cases hd with ⟨i, h1, ⟨v, h2, h3⟩ | ⟨n, t, c, h2⟩⟩ | ⟨j, fi, h2, ⟨k, v, rfl, h3, h4⟩ | ⟨k, v, rfl, h3, h4⟩⟩
  · obtain ⟨c, r⟩ := d
    simp only at h1
    subst h1
    obtain ⟨y, hy, e⟩ := h i _ h2
    simp only [Evolves] at e
    obtain ⟨w, rfl, -, h5⟩ := e
    exact typedAt_glob hy (h5 h3)
  · obtain ⟨c', r⟩ := d
    simp only at h1
    subst h1
    obtain ⟨y, hy, e⟩ := h i _ h2
    simp only [Evolves] at e
    subst e
    exact ⟨.const c, t, by simp [symInfo, hy]⟩
  · obtain ⟨y, hy, e⟩ := h j _ h2
    simp only [Evolves] at e
    obtain ⟨fj, rfl, -, h5⟩ := e
    obtain ⟨w, hw, h6⟩ := h5 k v h3
    exact typedAt_loc hy hw (h6 h4)
  · obtain ⟨y, hy, e⟩ := h j _ h2
    simp only [Evolves] at e
    obtain ⟨fj, rfl, h5, -⟩ := e
    obtain ⟨w, hw, h6⟩ := h5 k v h3
    exact typedAt_arg hy hw (h6 h4)

/-! ## The operations -/

/-- Arguments have a type. -/
def ArgsTyped (f : Front) : Prop := ∀ fi, Sym.func fi ∈ f.syms → ∀ v ∈ fi.args, v.tag.isSome = true

/-- What reading a piece of source does to the table. -/
structure Evo (f f' : Front) : Prop where
  after : After f f'
  types : TypesOk f → TypesOk f'
  args : ArgsTyped f → ArgsTyped f'

theorem Evo.refl (f : Front) : Evo f f := ⟨.refl f, id, id⟩
theorem Evo.trans {f g h : Front} (a : Evo f g) (b : Evo g h) : Evo f h :=
  ⟨a.after.trans b.after, fun x => b.types (a.types x), fun x => b.args (a.args x)⟩

/-- Only `currFunc`, `currScope` or the counters change. -/
theorem evo_same {f f' : Front} (h : f'.syms = f.syms) : Evo f f' := by
  have ha : After f f' := fun i x hx => ⟨x, by rw [h]; exact hx, .refl x⟩
  refine ⟨ha, fun ht x hx => ?_, fun ht => ?_⟩
  · rw [h] at hx
    exact ⟨fun t hh => ha.typ ((ht x hx).1 t hh), (ht x hx).2⟩
  · unfold ArgsTyped; rw [h]; exact ht

/-- New symbols whose types exist. -/
theorem evo_append {f f' : Front} {C : List Sym} (h : f'.syms = f.syms ++ C) (hC : ∀ x ∈ C, x.tags = [] ∧ x.small ∧ ∀ fi, x = .func fi → fi.args = []) : Evo f f' := by
  have ha : After f f' := fun i x hx => ⟨x, by rw [h, List.getElem?_append_left (List.getElem?_eq_some_iff.1 hx).1]; exact hx, .refl x⟩
  refine ⟨ha, fun ht x hx => ?_, fun ht fi hx v hv => ?_⟩
  · rw [h] at hx
    rcases List.mem_append.1 hx with hx | hx
    · exact ⟨fun t hh => ha.typ ((ht x hx).1 t hh), (ht x hx).2⟩
    · exact ⟨fun t hh => by rw [(hC x hx).1] at hh; simp at hh, (hC x hx).2.1⟩
  · rw [h] at hx
    rcases List.mem_append.1 hx with hx | hx
    · exact ht fi hx v hv
    · rw [(hC _ hx).2.2 fi rfl] at hv; simp at hv

theorem Mentions.evo {f f' : Front} (h : Mentions f f') : Evo f f' := by
  obtain ⟨C, hC, e⟩ := h.syms
  refine evo_append e fun x hx => ?_
  rcases hC x hx with ⟨n, rfl⟩ | ⟨t, rfl⟩
  · exact ⟨rfl, by simp [Sym.small], by simp⟩
  · exact ⟨rfl, trivial, by simp⟩

/-- A symbol is changed. -/
theorem evo_set {f f' : Front} {i : Nat} {a b : Sym} (hi : f.syms[i]? = some a) (h : f'.syms = f.syms.set i b) (he : Evolves a b)
    (ht : ∀ t ∈ b.tags, t ∈ a.tags ∨ TagOk f t) (hs : a.small → b.small)
    (hargs : (∀ fi, a = .func fi → ∀ v ∈ fi.args, v.tag.isSome = true) → ∀ fi, b = .func fi → ∀ v ∈ fi.args, v.tag.isSome = true) : Evo f f' := by
  have hlt := (List.getElem?_eq_some_iff.1 hi).1
  have ha : After f f' := by
    intro j x hx
    rw [h]
    by_cases e : i = j
    · subst e
      rw [hi] at hx
      cases hx
      exact ⟨b, List.getElem?_set_self hlt, he⟩
    · exact ⟨x, by rw [List.getElem?_set_ne e]; exact hx, .refl x⟩
  refine ⟨ha, fun ok x hx => ?_, fun ok fi hx => ?_⟩
  · rw [h] at hx
    rcases List.mem_or_eq_of_mem_set hx with hx | rfl
    · exact ⟨fun t hh => ha.typ ((ok x hx).1 t hh), (ok x hx).2⟩
    · have hm := ok a (List.mem_of_getElem? hi)
      refine ⟨fun t hh => ha.typ ?_, hs hm.2⟩
      rcases ht t hh with hh | hh
      · exact hm.1 t hh
      · exact hh
  · rw [h] at hx
    rcases List.mem_or_eq_of_mem_set hx with hx | e
    · exact ok fi hx
    · exact hargs (fun fj ej => by subst ej; exact ok fj (List.mem_of_getElem? hi)) fi e.symm

theorem evo_update {upd : FuncInfo → FuncInfo} {f f' : Front} {r} (h : updateFunc upd f = .ok r f')
    (h1 : ∀ fi (k : Nat) v, fi.args[k]? = some v → ∃ w, (upd fi).args[k]? = some w ∧ (v.tag.isSome = true → w.tag.isSome = true))
    (h2 : ∀ fi (k : Nat) v, fi.locals[k]? = some v → ∃ w, (upd fi).locals[k]? = some w ∧ (v.tag.isSome = true → w.tag.isSome = true))
    (h3 : ∀ fi, ∀ t ∈ (Sym.func (upd fi)).tags, t ∈ (Sym.func fi).tags ∨ TagOk f t)
    (h4 : ∀ fi : FuncInfo, (∀ v ∈ fi.args, v.tag.isSome = true) → ∀ v ∈ (upd fi).args, v.tag.isSome = true) : Evo f f' := by
  obtain ⟨i, fi, -, hi, rfl⟩ := updateFunc_inv h
  exact evo_set hi rfl ⟨_, rfl, h1 fi, h2 fi⟩ (h3 fi) (fun _ => trivial) fun hh fj ej => by cases ej; exact h4 fi (hh fi rfl)

theorem evo_close {f f' : Front} {r} (h : closeScope f = .ok r f') : Evo f f' := by
  simp only [closeScope, act_bind, Act.get] at h
  cases hc : f.currFunc with
  | none => rw [hc] at h; cases h; exact evo_same rfl
  | dangling =>
    rw [hc] at h
    obtain ⟨_, f1, h1, h⟩ := Act.ok_inv h
    obtain ⟨i, fi, hi, -⟩ := updateFunc_inv h1
    rw [hc] at hi; cases hi
  | «at» j =>
    rw [hc] at h
    obtain ⟨_, f1, h1, h⟩ := Act.ok_inv h
    cases h
    refine (evo_update h1 (fun fi k v hv => ⟨v, hv, id⟩) (fun fi k v hv => ?_) (fun fi t ht => ?_) fun fi hh => hh).trans (evo_same rfl)
    · refine ⟨endScope f.currScope v, by simp [hv], ?_⟩
      unfold endScope
      split <;> exact id
    · simp only [Sym.tags, List.mem_append, List.mem_filterMap, List.mem_map] at ht ⊢
      rcases ht with ⟨v, hv | ⟨w, hw, rfl⟩, e⟩ | ht
      · exact .inl (.inl ⟨v, .inl hv, e⟩)
      · refine .inl (.inl ⟨w, .inr hw, ?_⟩)
        unfold endScope at e
        split at e <;> exact e
      · exact .inl (.inr ht)

theorem evo_open {f f' : Front} {r} (h : openScope f = .ok r f') : Evo f f' := by cases h; exact evo_same rfl

theorem evo_begin {n : Name} {f f' : Front} {i} (h : beginFunc n f = .ok i f') : Evo f f' ∧ f'.currFunc = .at i ∧ HasFn f' i ∧ i = f.syms.length := by
  cases h
  exact ⟨evo_append (C := [_]) rfl (by simp [Sym.tags, Sym.small]), rfl, ⟨_, by simp; rfl⟩, rfl⟩

theorem append_get {l : List VarInfo} {x : VarInfo} {k : Nat} {v : VarInfo} (h : l[k]? = some v) :
    ∃ w, (l ++ [x])[k]? = some w ∧ (v.tag.isSome = true → w.tag.isSome = true) :=
  ⟨v, by rw [List.getElem?_append_left (List.getElem?_eq_some_iff.1 h).1]; exact h, id⟩

theorem currentFunc_same {f f' : Front} {r} (h : currentFunc f = .ok r f') : f' = f := currentFunc_state h

theorem evo_params (n : Nat) : ∀ (ps : List (Name × Tag)) {f f' : Front} {r}, (∀ p ∈ ps, TagOk f p.2) → declareArguments n ps f = .ok r f' →
    Evo f f' ∧ f'.currFunc = f.currFunc
  | [], f, f', r, _, h => by cases h; exact ⟨.refl _, rfl⟩
  | p :: ps, f, f', r, hp, h => by
    unfold declareArguments at h
    replace h := Act.ok_inv h
    obtain ⟨_, f1, h1, h⟩ := h
    unfold declareArgument at h1
    obtain ⟨q, f2, h2, h1⟩ := Act.ok_inv h1
    have := currentFunc_same h2
    subst this
    cases q with
    | none => cases h1
    | some fi =>
      simp only at h1
      split at h1
      · cases h1
      · have hc : f1.currFunc = f2.currFunc := by obtain ⟨i, fi, -, -, rfl⟩ := updateFunc_inv h1; rfl
        have e := evo_update h1 (fun fi k v hv => append_get hv) (fun fi k v hv => ⟨v, hv, id⟩) (fun fi t ht => by
          simp only [Sym.tags, List.mem_append, List.mem_filterMap, List.mem_singleton] at ht ⊢
          rcases ht with ⟨v, (hv | rfl) | hv, e⟩ | ht
          · exact .inl (.inl ⟨v, .inl hv, e⟩)
          · simp only [Option.some.injEq] at e; subst e; exact .inr (hp p (by simp))
          · exact .inl (.inl ⟨v, .inr hv, e⟩)
          · exact .inl (.inr ht)) (fun fi hh v hv => by
            simp only [List.mem_append, List.mem_singleton] at hv
            rcases hv with hv | rfl
            · exact hh v hv
            · rfl)
        obtain ⟨e', hc'⟩ := evo_params n ps (fun p' hp' => e.after.typ (hp p' (by simp [hp']))) h
        exact ⟨e.trans e', hc'.trans hc⟩

theorem evo_ret {f f' : Front} {t : Tag} {r} (ht : TagOk f t) (h : updateFunc (fun fi => { fi with ret := some t }) f = .ok r f') :
    Evo f f' ∧ f'.currFunc = f.currFunc := by
  refine ⟨evo_update h (fun fi k v hv => ⟨v, hv, id⟩) (fun fi k v hv => ⟨v, hv, id⟩) (fun fi t' ht' => ?_) fun fi hh => hh, ?_⟩
  · simp only [Sym.tags, List.mem_append, List.mem_filterMap, Option.toList_some, List.mem_singleton] at ht' ⊢
    rcases ht' with h | rfl
    · exact .inl (.inl h)
    · exact .inr ht
  · obtain ⟨i, fi, -, -, rfl⟩ := updateFunc_inv h; rfl

theorem evo_declare {n : Name} {f f' : Front} {r} (h : declareVar n f = .ok r f') : Evo f f' := by
  simp only [declareVar, act_bind, Act.get] at h
  split at h
  · replace h := Act.ok_inv h
    obtain ⟨k, f1, h1, h⟩ := h
    cases h
    unfold declareLocal at h1
    obtain ⟨q, f2, h2, h1⟩ := Act.ok_inv h1
    have := currentFunc_same h2
    subst this
    cases q with
    | none => cases h1
    | some fi =>
      simp only at h1
      split at h1
      · cases h1
      · simp only [act_bind, Act.get] at h1
        obtain ⟨_, f3, h3, h1⟩ := Act.ok_inv h1
        cases h1
        refine evo_update h3 (fun fi k v hv => ⟨v, hv, id⟩) (fun fi k v hv => append_get hv) (fun fi t ht => ?_) fun fi hh => hh
        simp only [Sym.tags, List.mem_append, List.mem_filterMap, List.mem_singleton] at ht ⊢
        rcases ht with ⟨v, hv | hv | rfl, e⟩ | ht
        · exact .inl (.inl ⟨v, .inl hv, e⟩)
        · exact .inl (.inl ⟨v, .inr hv, e⟩)
        · cases e
        · exact .inl (.inr ht)
  · replace h := Act.ok_inv h
    obtain ⟨k, f1, h1, h⟩ := h
    cases h
    unfold declareGlobalVar at h1
    obtain ⟨q, f2, h2, h1⟩ := Act.ok_inv h1
    rw [referenceVariable_state h2] at h1
    split at h1
    · cases h1
    · cases h1
      exact evo_append (C := [_]) rfl (by simp [Sym.tags, Sym.small])

theorem evo_setTag {v : Option SymRef} {t : Tag} {f f' : Front} {r} (ht : TagOk f t) (h : setVarTag v t f = .ok r f') : Evo f f' := by
  have hm : ∀ (l : List VarInfo) (k m : Nat) v, l[m]? = some v → ∃ w, (l.modify k fun v => { v with tag := some t })[m]? = some w ∧
      (v.tag.isSome = true → w.tag.isSome = true) := by
    intro l k m v hv
    refine ⟨_, modify_get hv, fun hh => ?_⟩
    split
    · rfl
    · exact hh
  have hmm : ∀ (l : List VarInfo) (k : Nat) w, w ∈ (l.modify k fun v => { v with tag := some t }) → w ∈ l ∨ w.tag = some t := by
    intro l k w hw
    obtain ⟨m, hm⟩ := List.mem_iff_getElem?.1 hw
    cases hl : l[m]? with
    | none => rw [List.getElem?_modify, hl] at hm; cases hm
    | some w' =>
      rw [modify_get hl] at hm
      cases hm
      split
      · exact .inr rfl
      · exact .inl (List.mem_of_getElem? hl)
  unfold setVarTag at h
  split at h
  · refine evo_update h (fun fi k v hv => ⟨v, hv, id⟩) (fun fi k v hv => hm _ _ _ _ hv) (fun fi t' ht' => ?_) fun fi hh => hh
    simp only [Sym.tags, List.mem_append, List.mem_filterMap] at ht' ⊢
    rcases ht' with ⟨v, hv | hv, e⟩ | h
    · exact .inl (.inl ⟨v, .inl hv, e⟩)
    · rcases hmm _ _ _ hv with hv | hv
      · exact .inl (.inl ⟨v, .inr hv, e⟩)
      · rw [hv] at e; cases e; exact .inr ht
    · exact .inl (.inr h)
  · refine evo_update h (fun fi k v hv => hm _ _ _ _ hv) (fun fi k v hv => ⟨v, hv, id⟩) (fun fi t' ht' => ?_) fun fi hh v hv => ?_
    · simp only [Sym.tags, List.mem_append, List.mem_filterMap] at ht' ⊢
      rcases ht' with ⟨v, hv | hv, e⟩ | h
      · rcases hmm _ _ _ hv with hv | hv
        · exact .inl (.inl ⟨v, .inl hv, e⟩)
        · rw [hv] at e; cases e; exact .inr ht
      · exact .inl (.inl ⟨v, .inr hv, e⟩)
      · exact .inl (.inr h)
    · rcases hmm _ _ _ hv with hv | hv
      · exact hh v hv
      · rw [hv]; rfl
  · split at h
    · rename_i v hi
      cases h
      exact evo_set hi rfl ⟨_, rfl, rfl, fun _ => rfl⟩ (fun t' ht' => .inr (by simp [Sym.tags] at ht'; subst ht'; exact ht)) (fun _ => trivial)
        fun _ fi e => by cases e
    · cases h
  · cases h

theorem evo_const {n : Name} {l : Lit Nat} {f f' : Front} {r} (h : declareConst n l.const.1 l.const.2 f = .ok r f') : Evo f f' := by
  unfold declareConst at h
  obtain ⟨o, f1, h1, h⟩ := Act.ok_inv h
  rw [referenceVariable_state h1] at h
  cases o with
  | some _ => cases h
  | none => cases h; exact evo_append (C := [_]) rfl (by simp [Sym.tags, Sym.small])

theorem evo_struct {n : Name} {f : Front} {d d' : Bool} {fs gs : List (Name × Tag)} (h : f.syms.findSome? (·.structInfo n) = some (d, fs))
    (ht : ∀ p ∈ gs, p ∈ fs ∨ TagOk f p.2) (hl : fs.length ≤ 255 → gs.length ≤ 255) (hd : d = true → d' = true) :
    Evo f { f with syms := updateStruct n (.struct n d' gs) f.syms } := by
  obtain ⟨A, B, e, hA⟩ := structInfo_split h
  refine evo_set (i := A.length) (a := .struct n d fs) (b := .struct n d' gs) (by rw [e]; simp) ?_ ⟨_, _, rfl, hd⟩ ?_ hl fun _ fi e => by cases e
  · simp only [e, updateStruct_split hA]
    rw [List.set_append_right _ _ (Nat.le_refl _)]
    simp
  · intro t ht'
    simp only [Sym.tags, List.mem_map] at ht' ⊢
    obtain ⟨p, hp, rfl⟩ := ht'
    exact (ht p hp).imp_left fun h => ⟨p, h, rfl⟩

theorem evo_beginStruct {n : Name} {f f' : Front} {r} (h : beginStruct n f = .ok r f') : Evo f f' := by
  unfold beginStruct at h
  obtain ⟨_, f1, h1, h⟩ := Act.ok_inv h
  refine (mentions_struct h1).evo.trans ?_
  simp only [act_bind, Act.get] at h
  cases hs : f1.syms.findSome? (·.structInfo n) with
  | none => rw [hs] at h; cases h
  | some p =>
    obtain ⟨d, fs⟩ := p
    rw [hs] at h
    cases d with
    | true => cases h
    | false => cases h; exact evo_struct hs (fun p hp => .inl hp) id fun _ => rfl

theorem evo_endStruct {n : Name} {f f' : Front} {r} (h : endStruct n f = .ok r f') : Evo f f' := by
  simp only [endStruct, act_bind, Act.get] at h
  cases hs : f.syms.findSome? (·.structInfo n) with
  | none => rw [hs] at h; cases h
  | some p =>
    rw [hs] at h
    simp only at h
    split at h
    · cases h
    · cases h; exact .refl _

/-- The type a source names exists. -/
theorem type_ok {ty : SType} {f f' : Front} {t} (h : nameType frontOps ty f = .ok t f') : TagOk f' t := by
  unfold nameType at h
  obtain ⟨t1, f1, h1, h⟩ := Act.ok_inv h
  split at h
  · have h : makeNullable t1 f1 = .ok t f' := h
    rw [(mentions_nullable h).2]; exact trivial
  · cases h
    have h1 : getTagFromName ty.1 f = .ok t f' := h1
    simp only [getTagFromName] at h1
    cases hp : primTag ty.1 with
    | some t =>
      rw [hp] at h1
      cases h1
      unfold primTag at hp
      repeat' split at hp
      all_goals cases hp
      all_goals exact trivial
    | none =>
      rw [hp] at h1
      simp only [act_bind, Act.get] at h1
      cases hs : f.syms.findSome? (·.asType ty.1) with
      | some t =>
        rw [hs] at h1
        cases h1
        obtain ⟨x, hx, e⟩ := List.exists_of_findSome?_eq_some hs
        cases x <;> simp only [Sym.asType, reduceCtorEq] at e
        all_goals
          split at e
          · cases e
            rename_i e'
            exact ⟨_, hx, by simp [Sym.asType]⟩
          · cases e
      | none =>
        rw [hs] at h1
        cases h1
        exact ⟨.struct ty.1 false [], by simp, by simp [Sym.asType]⟩

theorem evo_fields (n : Name) : ∀ (fs : List (Name × SType)) {f f' : Front} {x}, nameFields frontOps n fs f = .ok x f' → Evo f f'
  | [], _, _, _, h => by cases h; exact .refl _
  | p :: ps, f, f', x, h => by
    unfold nameFields at h
    obtain ⟨_, f1, h1, h⟩ := Act.ok_inv h
    obtain ⟨t, f2, h2, h⟩ := Act.ok_inv h
    obtain ⟨_, f3, h3, h⟩ := Act.ok_inv h
    obtain ⟨_, f4, h4, h⟩ := Act.ok_inv h
    cases h
    have h1 : checkField n p.1 f = .ok _ f1 := h1
    have h3 : addField n p.1 t f2 = .ok _ f3 := h3
    refine Evo.trans ?_ (evo_fields n ps h4)
    simp only [checkField, act_bind, Act.get] at h1
    cases hs : f.syms.findSome? (·.structInfo n) with
    | none => rw [hs] at h1; cases h1
    | some q =>
      obtain ⟨d, fs⟩ := q
      rw [hs] at h1
      simp only at h1
      split at h1
      · cases h1
      · rename_i hl
        split at h1
        · cases h1
        · cases h1
          obtain ⟨m, -⟩ := mentions_type h2
          refine m.evo.trans ?_
          obtain ⟨C, -, e⟩ := m.syms
          have hs2 : f2.syms.findSome? (·.structInfo n) = some (d, fs) := by rw [e, List.findSome?_append, hs]; rfl
          simp only [addField, act_bind, Act.get, hs2] at h3
          cases h3
          refine evo_struct hs2 (fun p hp => ?_) (fun _ => by simp; omega) id
          rcases List.mem_append.1 hp with hp | hp
          · exact .inl hp
          · simp only [List.mem_singleton] at hp
            subst hp
            exact .inr (type_ok h2)

theorem params_ok : ∀ (ps : List (Name × SType)) {f f' : Front} {x}, nameParams frontOps ps f = .ok x f' → ∀ p ∈ x, TagOk f' p.2
  | [], f, f', x, h => by cases h; simp
  | p :: ps, f, f', x, h => by
    unfold nameParams at h
    obtain ⟨t, f1, h1, h⟩ := Act.ok_inv h
    obtain ⟨qs, f2, h2, h⟩ := Act.ok_inv h
    cases h
    intro q hq
    rcases List.mem_cons.1 hq with rfl | hq
    · exact (mentions_params ps h2).1.evo.after.typ (type_ok h1)
    · exact params_ok ps h2 q hq

theorem ret_ok {r : Option SType} {f f' : Front} {x} (h : nameRet frontOps r f = .ok x f') : TagOk f' (x.getD .void) := by
  cases r with
  | none => cases h; exact trivial
  | some ty =>
    unfold nameRet at h
    obtain ⟨t, f1, h1, h⟩ := Act.ok_inv h
    cases h
    exact type_ok h1

/-! ## References -/

theorem normal_place (c : Cur) (r : SymRef) : Normal (place c r) := by
  intro i h
  cases r <;> simp_all [place]

theorem currentFunc_none {f : Front} (h : f.currFunc = .none) : currentFunc f = .ok none f := by unfold currentFunc; rw [h]

theorem curFunc_inv {f : Front} {o} (h : currentFunc f = .ok o f) :
    (f.currFunc = .none ∧ o = none) ∨ ∃ j fi, f.currFunc = .at j ∧ f.syms[j]? = some (.func fi) ∧ o = some fi := by
  unfold currentFunc at h
  split at h
  · cases h; exact .inl ⟨by assumption, rfl⟩
  · cases h
  · split at h
    · cases h; exact .inr ⟨_, _, by assumption, by assumption, rfl⟩
    · cases h

/-- What `ReferenceVariable` finds. -/
theorem ref_inv {n : Name} {f f' : Front} {o} (h : referenceVariable n f = .ok o f') :
    ∃ q, currentFunc f = .ok q f ∧ o = match lookupFunc n q with
      | some r => some r
      | none => (f.syms.findIdx? (·.isVar n)).map .glob := by
  unfold referenceVariable at h
  replace h := Act.ok_inv h
  obtain ⟨q, f1, h1, h⟩ := h
  have := currentFunc_state h1
  subst this
  refine ⟨q, h1, ?_⟩
  cases hl : lookupFunc n q with
  | some r => rw [hl] at h; cases h; rfl
  | none => rw [hl] at h; cases h; rfl

theorem ref_intro {n : Name} {f : Front} {q} (h : currentFunc f = .ok q f) :
    referenceVariable n f = .ok (match lookupFunc n q with
      | some r => some r
      | none => (f.syms.findIdx? (·.isVar n)).map .glob) f := by
  unfold referenceVariable
  rw [act_bind, h]
  simp only
  cases hl : lookupFunc n q <;> rfl

/-- A variable the parser finds exists; if it is no variable of a kind which may be without a type, it has one. -/
theorem ref_place {n : Name} {f f' : Front} {r : SymRef} (ha : ArgsTyped f) (h : referenceVariable n f = .ok (some r) f') :
    tagOf f (place f.currFunc r) ≠ none ∨ TypedAt f (place f.currFunc r) := by
  obtain ⟨q, hq, e⟩ := ref_inv h
  have hglob : ∀ i, f.syms.findIdx? (·.isVar n) = some i → tagOf f (.none, .glob i) ≠ none ∨ TypedAt f (.none, .glob i) := by
    intro i hi
    obtain ⟨hl, hp, -⟩ := List.findIdx?_eq_some_iff_getElem.1 hi
    have hx := List.getElem?_eq_getElem hl
    revert hp hx
    generalize f.syms[i] = x
    intro hp hx
    cases x <;> simp only [Sym.isVar, Bool.false_eq_true] at hp
    · left; rw [tagAt_glob hx]; simp
    · right; exact ⟨_, _, by simp only [symInfo, hx]; rfl⟩
  cases hl : lookupFunc n q with
  | none =>
    rw [hl] at e
    simp only at e
    cases hi : f.syms.findIdx? (·.isVar n) with
    | none => rw [hi] at e; cases e
    | some i => rw [hi] at e; cases e; exact hglob i hi
  | some r' =>
    rw [hl] at e
    cases e
    rcases curFunc_inv hq with ⟨-, rfl⟩ | ⟨j, fi, hc, hj, rfl⟩
    · cases hl
    · unfold lookupFunc at hl
      simp only at hl
      cases hk : fi.locals.findIdx? (fun v => !v.ended && v.name == n) with
      | some k =>
        rw [hk] at hl
        cases hl
        left
        obtain ⟨hlt, -⟩ := List.findIdx?_eq_some_iff_getElem.1 hk
        simp only [place, hc]
        rw [tagAt_loc hj (List.getElem?_eq_getElem hlt)]; simp
      | none =>
        rw [hk] at hl
        simp only [Option.map_eq_some_iff] at hl
        obtain ⟨k, hk', rfl⟩ := hl
        right
        obtain ⟨hlt, -⟩ := List.findIdx?_eq_some_iff_getElem.1 hk'
        simp only [place, hc]
        exact typedAt_arg hj (List.getElem?_eq_getElem hlt) (ha fi (List.mem_of_getElem? hj) _ (List.getElem_mem hlt))

theorem findIdx_append_none {α : Type} {l C : List α} {p : α → Bool} (h : ∀ x ∈ C, p x = false) : (l ++ C).findIdx? p = l.findIdx? p := by
  rw [List.findIdx?_append]
  have : C.findIdx? p = none := by
    rw [List.findIdx?_eq_none_iff]
    exact h
  simp [this]

/-- Mentions do not change what a name means. -/
theorem Mentions.ref {f f' : Front} (m : Mentions f f') {n : Name} {r} (h : referenceVariable n f' = .ok r f') :
    referenceVariable n f = .ok r f := by
  obtain ⟨C, hC, e⟩ := m.syms
  obtain ⟨q, hq, rfl⟩ := ref_inv h
  have hq' : currentFunc f = .ok q f := by
    rcases curFunc_inv hq with ⟨hc, rfl⟩ | ⟨j, fi, hc, hj, rfl⟩
    · rw [m.cur] at hc; exact currentFunc_none hc
    · rw [m.cur] at hc
      have : f.syms[j]? = some (.func fi) := by
        rw [e] at hj
        by_cases hlt : j < f.syms.length
        · rwa [List.getElem?_append_left hlt] at hj
        · rw [List.getElem?_append_right (by omega)] at hj
          rcases hC _ (List.mem_of_getElem? hj) with ⟨_, h⟩ | ⟨_, h⟩ <;> cases h
      unfold currentFunc
      rw [hc]
      simp only [this]
  rw [ref_intro hq', e, findIdx_append_none]
  intro x hx
  rcases hC x hx with ⟨_, rfl⟩ | ⟨_, rfl⟩ <;> rfl

/-- A declaration changes only what its own name means. -/
theorem declare_ref {n m : Name} {f f' : Front} {v r} (hne : n ≠ m) (hd : declareVar n f = .ok v f') (h : referenceVariable m f' = .ok r f') :
    referenceVariable m f = .ok r f := by
  obtain ⟨q, hq, rfl⟩ := ref_inv h
  simp only [declareVar, act_bind, Act.get] at hd
  split at hd
  · rename_i hcur
    replace hd := Act.ok_inv hd
    obtain ⟨k, f1, h1, hd⟩ := hd
    cases hd
    unfold declareLocal at h1
    obtain ⟨o, f2, h2, h1⟩ := Act.ok_inv h1
    have := currentFunc_state h2
    subst this
    cases o with
    | none => cases h1
    | some fi =>
      simp only at h1
      split at h1
      · cases h1
      · simp only [act_bind, Act.get] at h1
        obtain ⟨_, f3, h3, h1⟩ := Act.ok_inv h1
        cases h1
        rcases curFunc_inv h2 with ⟨-, h⟩ | ⟨j, fi', hc, hj, h⟩
        · cases h
        · cases h
          obtain ⟨i, fj, hi, hfj, rfl⟩ := updateFunc_inv h3
          rw [hc] at hi
          cases hi
          rw [hj] at hfj
          cases hfj
          have hlt := (List.getElem?_eq_some_iff.1 hj).1
          unfold currentFunc at hq
          simp only [hc, List.getElem?_set_self hlt, Out.ok.injEq, and_true] at hq
          subst hq
          rw [ref_intro h2]
          have e1 : ∀ w : VarInfo, w.name = n → (fi.locals ++ [w]).findIdx? (fun v => !v.ended && v.name == m) = fi.locals.findIdx? (fun v => !v.ended && v.name == m) := by
            intro w hw
            refine findIdx_append_none fun x hx => ?_
            rw [List.mem_singleton] at hx
            subst hx
            simp [hw, hne]
          have e2 : (f2.syms.set j (Sym.func { fi with locals := fi.locals ++ [{ name := n, idx := fi.locals.length, scope := f2.currScope }] })).findIdx? (·.isVar m)
              = f2.syms.findIdx? (·.isVar m) := by
            obtain ⟨A, B, hs, hset⟩ := set_split hj
            rw [hset, hs]
            simp [List.findIdx?_append, List.findIdx?_cons, Sym.isVar]
          simp only [lookupFunc, e2]
          rw [e1 _ rfl]
  · rename_i hcur
    have hcur : f.currFunc = .none := by simpa using hcur
    replace hd := Act.ok_inv hd
    obtain ⟨k, f1, h1, hd⟩ := hd
    cases hd
    unfold declareGlobalVar at h1
    obtain ⟨o, f2, h2, h1⟩ := Act.ok_inv h1
    rw [referenceVariable_state h2] at h1
    split at h1
    · cases h1
    · cases h1
      have hq : currentFunc { f with syms := f.syms ++ [Sym.glob { name := n, idx := f.numGlobalVars }], numGlobalVars := f.numGlobalVars + 1 } = .ok q _ := hq
      rw [currentFunc_none (by exact hcur)] at hq
      cases hq
      rw [ref_intro (currentFunc_none hcur)]
      have e : (f.syms ++ [Sym.glob { name := n, idx := f.numGlobalVars }]).findIdx? (·.isVar m) = f.syms.findIdx? (·.isVar m) :=
        findIdx_append_none (by simp [Sym.isVar, hne])
      simp only [lookupFunc, e]

/-! ## Expressions -/

mutual
/-- The operators are those of the grammar. -/
def WfE : SExpr → Prop
  | .bin op l r => (level op).isSome = true ∧ WfE l ∧ WfE r
  | .un op e => (op = .minus ∨ op = .bang) ∧ WfE e
  | .call _ as => WfEs as
  | .paren e => WfE e
  | .dot l _ => WfE l
  | .index a i => WfE a ∧ WfE i
  | .ctor _ _ as => WfEs as
  | .cast e _ => WfE e
  | .ite c a b => WfE c ∧ WfE a ∧ WfE b
  | _ => True
/-- See `WfE`. -/
def WfEs : List SExpr → Prop
  | [] => True
  | e :: es => WfE e ∧ WfEs es
end

/-- The types and structs of the table are known. -/
structure KnownTypes (κ : Facts) (f : Front) : Prop where
  typ : ∀ t, TagOk f t → κ.typ t
  str : ∀ n, (∃ x ∈ f.syms, x.isStruct n = true) → κ.str n

theorem KnownTypes.before {κ : Facts} {f f' : Front} (h : KnownTypes κ f') (a : After f f') : KnownTypes κ f :=
  ⟨fun t ht => h.typ t (a.typ ht), fun n hn => h.str n (a.str hn)⟩

/-- The type of every variable the expression mentions is known. -/
def KnownRefs (κ : Facts) (f : Front) (p : Name → Prop) : Prop :=
  ∀ n r, p n → referenceVariable n f = .ok (some r) f → κ.var (place f.currFunc r)

theorem KnownRefs.mono {κ : Facts} {f : Front} {p q : Name → Prop} (h : KnownRefs κ f p) (hq : ∀ n, q n → p n) : KnownRefs κ f q :=
  fun n r hn hr => h n r (hq n hn) hr

theorem KnownRefs.mentions {κ : Facts} {f f' : Front} {p : Name → Prop} (h : KnownRefs κ f p) (m : Mentions f f') : KnownRefs κ f' p :=
  fun n r hn hr => by rw [m.cur]; exact h n r hn (m.ref hr)

theorem struct_there {n : Name} {f f' : Front} {r} (h : declareStruct n f = .ok r f') : ∃ x ∈ f'.syms, x.isStruct n = true := by
  simp only [declareStruct, act_bind, Act.get] at h
  split at h
  · rename_i ha
    cases h
    simpa using ha
  · cases h; exact ⟨.struct n false [], by simp, by simp [Sym.isStruct]⟩

mutual
/-- **The expressions of the parser read known variables.** -/
theorem expr_ok {κ : Facts} : ∀ (e : SExpr) {f f' : Front} {x : CExpr} {c : Cur}, WfE e → nameExpr frontOps e f = .ok x f' → f.currFunc = c →
    KnownRefs κ f (Occurs · e) → KnownTypes κ f' → OkE κ c x
  | .null, f, f', x, c, hw, h, hc, hr, ht => by cases h; simp [OkE]
  | .bool _, f, f', x, c, hw, h, hc, hr, ht => by cases h; simp [OkE]
  | .int _, f, f', x, c, hw, h, hc, hr, ht => by cases h; simp [OkE]
  | .char _, f, f', x, c, hw, h, hc, hr, ht => by cases h; simp [OkE]
  | .float _, f, f', x, c, hw, h, hc, hr, ht => by cases h; simp [OkE]
  | .str _, f, f', x, c, hw, h, hc, hr, ht => by
    unfold nameExpr at h
    obtain ⟨i, f1, h1, h⟩ := Act.ok_inv h
    cases h; simp [OkE]
  | .id n u, f, f', x, c, hw, h, hc, hr, ht => by
    unfold nameExpr at h
    obtain ⟨v, f1, h1, h⟩ := Act.ok_inv h
    cases h
    have h1 : referenceVariable n f = .ok v f' := h1
    have := referenceVariable_state h1
    subst this
    cases v with
    | none => simp [OkE]
    | some r => simpa only [OkE, hc] using hr n r (by simp [Occurs]) h1
  | .call g as, f, f', x, c, hw, h, hc, hr, ht => by
    unfold nameExpr at h
    obtain ⟨xs, f1, h1, h⟩ := Act.ok_inv h
    cases h
    simp only [WfE] at hw
    simp only [OkE]
    exact exprs_ok as hw h1 hc (hr.mono fun n hn => by simpa [Occurs] using hn) ht
  | .paren e, f, f', x, c, hw, h, hc, hr, ht => by
    unfold nameExpr at h
    obtain ⟨xs, f1, h1, h⟩ := Act.ok_inv h
    cases h
    simp only [WfE] at hw
    simp only [OkE]
    exact expr_ok e hw h1 hc (hr.mono fun n hn => by simpa [Occurs] using hn) ht
  | .bin op l r, f, f', x, c, hw, h, hc, hr, ht => by
    unfold nameExpr at h
    obtain ⟨l', f1, h1, h⟩ := Act.ok_inv h
    obtain ⟨r', f2, h2, h⟩ := Act.ok_inv h
    cases h
    simp only [WfE] at hw
    simp only [OkE]
    have m := mentions_expr l h1
    exact ⟨hw.1, expr_ok l hw.2.1 h1 hc (hr.mono fun n hn => by simp [Occurs, hn]) (ht.before (mentions_expr r h2).evo.after),
      expr_ok r hw.2.2 h2 (m.cur.trans hc) ((hr.mono fun n hn => by simp [Occurs, hn]).mentions m) ht⟩
  | .un op e, f, f', x, c, hw, h, hc, hr, ht => by
    unfold nameExpr at h
    obtain ⟨xs, f1, h1, h⟩ := Act.ok_inv h
    cases h
    simp only [WfE] at hw
    simp only [OkE]
    exact ⟨hw.1, expr_ok e hw.2 h1 hc (hr.mono fun n hn => by simpa [Occurs] using hn) ht⟩
  | .dot e _, f, f', x, c, hw, h, hc, hr, ht => by
    unfold nameExpr at h
    obtain ⟨xs, f1, h1, h⟩ := Act.ok_inv h
    cases h
    simp only [WfE] at hw
    simp only [OkE]
    exact expr_ok e hw h1 hc (hr.mono fun n hn => by simpa [Occurs] using hn) ht
  | .index l r, f, f', x, c, hw, h, hc, hr, ht => by
    unfold nameExpr at h
    obtain ⟨l', f1, h1, h⟩ := Act.ok_inv h
    obtain ⟨r', f2, h2, h⟩ := Act.ok_inv h
    cases h
    simp only [WfE] at hw
    simp only [OkE]
    have m := mentions_expr l h1
    exact ⟨expr_ok l hw.1 h1 hc (hr.mono fun n hn => by simp [Occurs, hn]) (ht.before (mentions_expr r h2).evo.after),
      expr_ok r hw.2 h2 (m.cur.trans hc) ((hr.mono fun n hn => by simp [Occurs, hn]).mentions m) ht⟩
  | .ctor n names as, f, f', x, c, hw, h, hc, hr, ht => by
    unfold nameExpr at h
    obtain ⟨_, f1, h1, h⟩ := Act.ok_inv h
    obtain ⟨xs, f2, h2, h⟩ := Act.ok_inv h
    cases h
    simp only [WfE] at hw
    simp only [OkE]
    have m := mentions_struct h1
    exact ⟨ht.str n ((mentions_exprs as h2).evo.after.str (struct_there h1)),
      exprs_ok as hw h2 (m.cur.trans hc) ((hr.mono fun n hn => by simpa [Occurs] using hn).mentions m) ht⟩
  | .cast e ty, f, f', x, c, hw, h, hc, hr, ht => by
    unfold nameExpr at h
    obtain ⟨x', f1, h1, h⟩ := Act.ok_inv h
    obtain ⟨t, f2, h2, h⟩ := Act.ok_inv h
    cases h
    simp only [WfE] at hw
    simp only [OkE]
    exact ⟨ht.typ t (type_ok h2), expr_ok e hw h1 hc (hr.mono fun n hn => by simpa [Occurs] using hn)
      (ht.before (mentions_type h2).1.evo.after)⟩
  | .ite d a b, f, f', x, c, hw, h, hc, hr, ht => by
    unfold nameExpr at h
    obtain ⟨l', f1, h1, h⟩ := Act.ok_inv h
    obtain ⟨r', f2, h2, h⟩ := Act.ok_inv h
    obtain ⟨s', f3, h3, h⟩ := Act.ok_inv h
    cases h
    simp only [WfE] at hw
    simp only [OkE]
    have m1 := mentions_expr d h1
    have m2 := mentions_expr a h2
    have m3 := mentions_expr b h3
    exact ⟨expr_ok d hw.1 h1 hc (hr.mono fun n hn => by simp [Occurs, hn]) (ht.before (m2.trans m3).evo.after),
      expr_ok a hw.2.1 h2 (m1.cur.trans hc) ((hr.mono fun n hn => by simp [Occurs, hn]).mentions m1) (ht.before m3.evo.after),
      expr_ok b hw.2.2 h3 (m2.cur.trans (m1.cur.trans hc)) ((hr.mono fun n hn => by simp [Occurs, hn]).mentions (m1.trans m2)) ht⟩
theorem exprs_ok {κ : Facts} : ∀ (es : List SExpr) {f f' : Front} {x : List CExpr} {c : Cur}, WfEs es → nameExprs frontOps es f = .ok x f' →
    f.currFunc = c → KnownRefs κ f (OccursIn · es) → KnownTypes κ f' → OkEs κ c x
  | [], f, f', x, c, hw, h, hc, hr, ht => by cases h; simp [OkEs]
  | e :: es, f, f', x, c, hw, h, hc, hr, ht => by
    unfold nameExprs at h
    obtain ⟨l', f1, h1, h⟩ := Act.ok_inv h
    obtain ⟨r', f2, h2, h⟩ := Act.ok_inv h
    cases h
    simp only [WfEs] at hw
    simp only [OkEs]
    have m := mentions_expr e h1
    exact ⟨expr_ok e hw.1 h1 hc (hr.mono fun n hn => by simp [OccursIn, hn]) (ht.before (mentions_exprs es h2).evo.after),
      exprs_ok es hw.2 h2 (m.cur.trans hc) ((hr.mono fun n hn => by simp [OccursIn, hn]).mentions m) ht⟩
end

/-! ## Statements -/

mutual
/-- The statement is one of the grammar, and contains no declaration `n := e` where `n` is mentioned in `e`. -/
def WfS : SStmt → Prop
  | .node _ s => WfS s
  | .call _ as => WfEs as
  | .block ss => WfSs ss
  | .assign op ann l r => (ann.isSome = true → op = .equal) ∧ (op = .declare → ∃ n u, l = .id n u) ∧ WfE l ∧ WfE r ∧ ¬ SelfDecl op l r
  | .proc _ _ _ _ b => WfS b
  | .ifThen c b => WfE c ∧ WfS b
  | .ifElse c b a => WfE c ∧ WfS b ∧ WfS a
  | .while c b => WfE c ∧ WfS b
  | .for i c s b => WfS i ∧ WfE c ∧ WfS s ∧ WfS b
  | .ret (some e) => WfE e
  | _ => True
/-- See `WfS`. -/
def WfSs : List SStmt → Prop
  | [] => True
  | s :: ss => WfS s ∧ WfSs ss
end

mutual
theorem wf_val : ∀ {e : SExpr} {l : Nat} {us : List Tk} {nx : Tk}, ValIs e l us nx → WfE e
  | _, _, _, _, .un h k _ => ⟨h, wf_fac k⟩
  | _, _, _, _, .paren _ h _ => by simpa [WfE] using wf_expr h
  | _, _, _, _, .call _ _ h => by simpa [WfE] using wf_args h
  | _, _, _, _, .ctor _ _ h => by simpa [WfE] using wf_inits h
  | _, _, _, _, .cast _ _ h _ _ _ => by simpa [WfE] using wf_expr h
  | _, _, _, _, .ite _ h _ k _ l _ => by simpa [WfE] using ⟨wf_expr h, wf_expr k, wf_expr l⟩
  | _, _, _, _, .null _ => trivial
  | _, _, _, _, .bool _ => trivial
  | _, _, _, _, .char _ => trivial
  | _, _, _, _, .int _ => trivial
  | _, _, _, _, .float _ => trivial
  | _, _, _, _, .str _ => trivial
  | _, _, _, _, .id _ _ => trivial
theorem wf_fac : ∀ {e : SExpr} {l : Nat} {us : List Tk} {nx : Tk}, FacIs e l us nx → WfE e
  | _, _, _, _, .val h => wf_val h
  | _, _, _, _, .dot h _ _ => by simpa [WfE] using wf_fac h
  | _, _, _, _, .index h _ k _ => by simpa [WfE] using ⟨wf_fac h, wf_expr k⟩
  | _, _, _, _, .arrow h _ _ _ k => by simpa [WfE, WfEs] using ⟨wf_fac h, wf_args k⟩
theorem wf_expr : ∀ {e : SExpr} {us : List Tk} {nx : Tk}, ExprIs e us nx → WfE e
  | _, _, _, .fac h _ => wf_fac h
  | _, _, _, .bin h k l _ _ => ⟨by simp [h], wf_expr k, wf_expr l⟩
theorem wf_args : ∀ {es : List SExpr} {us : List Tk}, ArgsIs es us → WfEs es
  | _, _, .nil _ => trivial
  | _, _, .last h _ => ⟨wf_expr h, trivial⟩
  | _, _, .cons h _ k => ⟨wf_expr h, wf_args k⟩
theorem wf_inits : ∀ {ns : List Name} {es : List SExpr} {us : List Tk}, InitsAre ns es us → WfEs es
  | _, _, _, .nil _ => trivial
  | _, _, _, .last _ h _ => ⟨wf_expr h, trivial⟩
  | _, _, _, .cons _ h _ k => ⟨wf_expr h, wf_inits k⟩
end

mutual
theorem wf_stmt : ∀ {s : SStmt} {us : List Tk} {nx : Tk}, StmtIs s us nx → ¬ SelfInit s → WfS s
  | _, _, _, .block _ h _, n => by simpa [WfS] using wf_stmts h (by simpa [SelfInit] using n)
  | _, _, _, .func _ _ _ _ _ h, n => by simpa [WfS] using wf_stmt h (by simpa [SelfInit] using n)
  | _, _, _, .ifThen _ k _ h _, n => by simpa [WfS] using ⟨wf_expr k, wf_stmt h (by simpa [SelfInit] using n)⟩
  | _, _, _, .ifElse _ l _ h _ k, n => by
    simp only [SelfInit, not_or] at n
    simpa [WfS] using ⟨wf_expr l, wf_stmt h n.1, wf_stmt k n.2⟩
  | _, _, _, .while _ k _ h, n => by simpa [WfS] using ⟨wf_expr k, wf_stmt h (by simpa [SelfInit] using n)⟩
  | _, _, _, .for _ h _ e _ k l, n => by
    simp only [SelfInit, not_or] at n
    simpa [WfS] using ⟨wf_stmt h n.1, wf_expr e, wf_stmt k n.2.1, wf_stmt l n.2.2⟩
  | _, _, _, .retNone _ _, _ => by simp [WfS]
  | _, _, _, .ret _ h _, _ => by simpa [WfS] using wf_expr h
  | _, _, _, .brk _, _ => by simp [WfS]
  | _, _, _, .cont _, _ => by simp [WfS]
  | _, _, _, .use _ _ _ _ _, _ => by simp [WfS]
  | _, _, _, .call h _, _ => by simpa [WfS, WfE] using wf_fac h
  | _, _, _, .declare _ _ h _, n => by
    simp only [SelfInit] at n
    simpa [WfS, WfE] using ⟨wf_expr h, n⟩
  | _, _, _, .typed _ _ _ _ h _, _ => by simpa [WfS, WfE, SelfDecl] using wf_expr h
  | _, _, _, .assign h _ _ _ k _ _ l _, n => by
    simp only [SelfInit] at n
    simpa [WfS, k] using ⟨wf_fac h, wf_expr l, n⟩
theorem wf_stmts : ∀ {ss : List SStmt} {us : List Tk} {nx : Tk}, StmtsAre ss us nx → ¬ SelfInits ss → WfSs ss
  | _, _, _, .nil, _ => trivial
  | _, _, _, .cons h k, n => by
    simp only [SelfInits, not_or] at n
    exact ⟨wf_stmt h n.1, wf_stmts k n.2⟩
end

theorem wf_prog : ∀ {ss : List SStmt} {us : List Tk} {nx : Tk}, ProgIs ss us nx → ¬ SelfInits ss → WfSs ss
  | _, _, _, .nil _, _ => trivial
  | _, _, _, .stmt h k, n => by
    simp only [SelfInits, not_or] at n
    exact ⟨wf_stmt h n.1, wf_prog k n.2⟩
  | _, _, _, .struct _ _ _ _ _ k, n => by
    simp only [SelfInits, not_or] at n
    exact ⟨by simp [WfS], wf_prog k n.2⟩

/-- The variables of the new table are old ones, or among these, or have a type. -/
def KnownVars (f f' : Front) (ds : List Place) : Prop :=
  ∀ d, Normal d → tagOf f' d ≠ none → tagOf f d ≠ none ∨ d ∈ ds ∨ TypedAt f' d

theorem Covered.known {f f' : Front} {ds : List Place} (h : Covered f f' ds) : KnownVars f f' ds :=
  fun d hn hd => (h d hn hd).imp_right .inl

theorem KnownVars.trans {f g h : Front} {ds es : List Place} (a : KnownVars f g ds) (b : KnownVars g h es) (ha : After g h) :
    KnownVars f h (ds ++ es) := by
  intro d hd hh
  rcases b d hd hh with hg | hm | ht
  · rcases a d hd hg with h1 | h1 | h1
    · exact .inl h1
    · exact .inr (.inl (List.mem_append_left _ h1))
    · exact .inr (.inr (ha.var h1))
  · exact .inr (.inl (List.mem_append_right _ hm))
  · exact .inr (.inr ht)

/-- What is known while a source is checked whose reading led from `f` to `f'`. -/
structure Base (κ : Facts) (f f' : Front) : Prop where
  old : ∀ d, Normal d → tagOf f d ≠ none → κ.var d
  typed : ∀ d, TypedAt f' d → κ.var d
  held : ∀ d, tagOf f' d ≠ none → κ.held d
  typ : ∀ t, TagOk f' t → κ.typ t
  str : ∀ n, (∃ x ∈ f'.syms, x.isStruct n = true) → κ.str n
  fn : ∀ i, HasFn f' i → κ.fn i

theorem Base.first {κ : Facts} {f g h : Front} (b : Base κ f h) (a : After g h) : Base κ f g where
  old := b.old
  typed := fun d hd => b.typed d (a.var hd)
  held := fun d hd => b.held d (a.held hd)
  typ := fun t ht => b.typ t (a.typ ht)
  str := fun n hn => b.str n (a.str hn)
  fn := fun i hi => b.fn i (a.fn hi)

theorem Base.next {κ : Facts} {f g h : Front} {ds : List Place} (b : Base κ f h) (k : KnownVars f g ds) (a : After g h) : Base (κ.add ds) g h where
  old := fun d hn hd => by
    rcases k d hn hd with h1 | h1 | h1
    · exact .inl (b.old d hn h1)
    · exact .inr h1
    · exact .inl (b.typed d (a.var h1))
  typed := fun d hd => .inl (b.typed d hd)
  held := b.held
  typ := b.typ
  str := b.str
  fn := b.fn

theorem Base.skip {κ : Facts} {f g h : Front} (b : Base κ f h) (k : KnownVars f g []) (a : After g h) : Base κ g h := by
  have := b.next k a
  rwa [Facts.add_nil] at this

theorem Base.refs {κ : Facts} {f h : Front} (b : Base κ f h) (ha : ArgsTyped f) (a : After f h) (p : Name → Prop) : KnownRefs κ f p := by
  intro n r _ hr
  rcases ref_place ha hr with h1 | h1
  · exact b.old _ (normal_place _ _) h1
  · exact b.typed _ (a.var h1)

theorem Base.types {κ : Facts} {f h : Front} (b : Base κ f h) : KnownTypes κ h := ⟨b.typ, b.str⟩

/-- The function being compiled exists. -/
def CurOk (f : Front) : Prop := f.currFunc = .none ∨ ∃ i, f.currFunc = .at i ∧ HasFn f i

theorem CurOk.after {f f' : Front} (h : CurOk f) (a : After f f') (e : f'.currFunc = f.currFunc) : CurOk f' := by
  rcases h with h | ⟨i, h, hi⟩
  · exact .inl (e.trans h)
  · exact .inr ⟨i, e.trans h, a.fn hi⟩

/-- What reading a piece of the source does. -/
structure Said (f f' : Front) (ds : List Place) (ok : Facts → Prop) : Prop where
  evo : Evo f f'
  cur : f'.currFunc = f.currFunc
  vars : KnownVars f f' ds
  ok : ArgsTyped f → CurOk f → ∀ κ, Base κ f f' → ok κ

/-- One piece after another. -/
theorem Said.next {f g h : Front} {ds es : List Place} {p q : Facts → Prop} (a : Said f g ds p) (b : Said g h es q) :
    Said f h (ds ++ es) fun κ => p κ ∧ q (κ.add ds) where
  evo := a.evo.trans b.evo
  cur := b.cur.trans a.cur
  vars := a.vars.trans b.vars b.evo.after
  ok := fun ha hc κ hb => ⟨a.ok ha hc κ (hb.first b.evo.after),
    b.ok (a.evo.args ha) (hc.after a.evo.after a.cur) _ (hb.next a.vars b.evo.after)⟩

/-- A piece without declarations after another. -/
theorem Said.then {f g h : Front} {ds : List Place} {p : Facts → Prop} (a : Said f g ds p) (b : Said g h [] fun _ => True) : Said f h ds p where
  evo := a.evo.trans b.evo
  cur := b.cur.trans a.cur
  vars := by have := a.vars.trans b.vars b.evo.after; rwa [List.append_nil] at this
  ok := fun ha hc κ hb => a.ok ha hc κ (hb.first b.evo.after)

/-- A piece after one without declarations. -/
theorem Said.after {f g h : Front} {ds : List Place} {p q : Facts → Prop} (a : Said f g [] p) (b : Said g h ds q) : Said f h ds fun κ => p κ ∧ q κ := by
  have := a.next b
  simpa only [Facts.add_nil, List.nil_append] using this

theorem Said.mono {f g : Front} {ds : List Place} {p q : Facts → Prop} (a : Said f g ds p) (h : ∀ κ, p κ → q κ) : Said f g ds q :=
  ⟨a.evo, a.cur, a.vars, fun ha hc κ hb => h κ (a.ok ha hc κ hb)⟩

theorem said_adds {f f' : Front} (e : Evo f f') (a : Adds f f') : Said f f' [] fun _ => True :=
  ⟨e, a.cur, a.covered.known, fun _ _ _ _ => trivial⟩

theorem said_refl (f : Front) : Said f f [] fun _ => True := said_adds (.refl f) (.refl f)

theorem said_open {f f' : Front} {r} (h : openScope f = .ok r f') : Said f f' [] fun _ => True := said_adds (evo_open h) (adds_open h)
theorem said_close {f f' : Front} {r} (h : closeScope f = .ok r f') : Said f f' [] fun _ => True := said_adds (evo_close h) (adds_close h)

theorem said_expr {e : SExpr} {f f' : Front} {x : CExpr} (hw : WfE e) (h : nameExpr frontOps e f = .ok x f') :
    Said f f' [] fun κ => OkE κ f.currFunc x where
  evo := (mentions_expr e h).evo
  cur := (mentions_expr e h).cur
  vars := (adds_expr e h).covered.known
  ok := fun ha _ _ hb => expr_ok e hw h rfl (hb.refs ha (mentions_expr e h).evo.after _) hb.types

theorem said_exprs {es : List SExpr} {f f' : Front} {x : List CExpr} (hw : WfEs es) (h : nameExprs frontOps es f = .ok x f') :
    Said f f' [] fun κ => OkEs κ f.currFunc x where
  evo := (mentions_exprs es h).evo
  cur := (mentions_exprs es h).cur
  vars := (adds_exprs es h).covered.known
  ok := fun ha _ _ hb => exprs_ok es hw h rfl (hb.refs ha (mentions_exprs es h).evo.after _) hb.types

/-- The variable a declaration with a type declares has that type. -/
theorem Declares.typed {f f' : Front} {t : Tag} {r : SymRef} (h : Declares f f' (some t) (some r)) : TypedAt f' (place f.currFunc r) := by
  obtain ⟨x, hx, hn, -, h2, -⟩ := h.step
  cases hx
  have h3 : tagOf f' (place f.currFunc r) ≠ none := by rw [h2]; simp
  rcases tagOf_cases h3 with ⟨i, v, h4, h5⟩ | ⟨j, k, fi, v, h4, h5, h6⟩
  · revert h2 h4
    generalize place f.currFunc r = d
    obtain ⟨c, r⟩ := d
    intro h2 h4
    simp only at h4
    subst h4
    rw [tagAt_glob h5] at h2
    simp only [Option.some.injEq] at h2
    exact typedAt_glob h5 (by rw [h2]; rfl)
  · rw [h4] at h2 ⊢
    rw [tagAt_loc h5 h6] at h2
    simp only [Option.some.injEq] at h2
    exact typedAt_loc h5 h6 (by rw [h2]; rfl)

theorem said_decl {op : Tok} {ann : Option SType} {n : Name} {u : Unit} {e : SExpr} {f f' : Front} {x : CStmt}
    (hp : (ann.isSome = true ∧ op = .equal) ∨ (ann = none ∧ op = .declare)) (hw : WfE e) (hs : ¬ SelfDecl op (.id n u) e)
    (h : nameDecl frontOps op ann n e f = .ok x f') :
    Said f f' (pdecls f.currFunc x) fun κ => OkS κ f.currFunc x := by
  unfold nameDecl at h
  obtain ⟨_, f1, h1, h⟩ := Act.ok_inv h
  obtain ⟨v, f2, h2, h⟩ := Act.ok_inv h
  rw [referenceVariable_state h1] at h2
  have h2 : declareVar n f = .ok v f2 := h2
  have hd := declareVar_inv h2
  cases ann with
  | none =>
    obtain ⟨-, rfl⟩ : none = none ∧ op = .declare := by rcases hp with ⟨h, -⟩ | h; · cases h
                                                        · exact h
    obtain ⟨y, f3, h3, h⟩ := Act.ok_inv h
    cases h
    have hm := mentions_expr e h3
    obtain ⟨r, rfl, -, -, d4, -, d5, -⟩ := hd.step
    have hv := hd.covered.trans (adds_expr e h3).covered
    refine ⟨(evo_declare h2).trans hm.evo, hm.cur.trans d5, by simpa [pdecls] using hv.known, fun ha hc κ hb => ?_⟩
    simp only [OkS]
    refine ⟨fun _ => ?_, fun hh => absurd rfl hh, ?_⟩
    · simp only [Declarable]
      exact hb.held _ (hm.evo.after.held (by rw [d4]; simp))
    · refine expr_ok e hw h3 d5 (fun m r hm' hr => ?_) hb.types
      have hne : n ≠ m := by rintro rfl; exact hs hm'
      rw [d5]
      exact hb.refs ha ((evo_declare h2).trans hm.evo).after (fun _ => True) m r trivial (declare_ref hne h2 hr)
  | some ty =>
    obtain rfl : op = .equal := by rcases hp with ⟨-, h⟩ | ⟨h, -⟩; · exact h
                                   · cases h
    obtain ⟨t, f3, h3, h⟩ := Act.ok_inv h
    obtain ⟨u, f4, h4, h⟩ := Act.ok_inv h
    obtain ⟨y, f5, h5, h⟩ := Act.ok_inv h
    cases h
    have hd' := setVarTag_inv (hd.adds (adds_type h3)) h4
    have hm := mentions_expr e h5
    obtain ⟨r, rfl, -, -, d4, -, d5, -⟩ := hd'.step
    have ev := ((evo_declare h2).trans (mentions_type h3).1.evo).trans (evo_setTag (type_ok h3) h4)
    have ht := hd'.typed
    have kv : KnownVars f f4 [] := fun d hn hdd => by
      rcases hd'.covered d hn hdd with h | h
      · exact .inl h
      · rw [List.mem_singleton] at h
        subst h
        exact .inr (.inr ht)
    have s1 : Said f f4 [] fun κ => κ.var (place f.currFunc r) :=
      ⟨ev, d5, kv, fun _ _ κ hb => hb.typed _ ht⟩
    have s2 := s1.after (said_expr hw h5)
    have e : pdecls f.currFunc (.assign .equal (some t) (.id n (some r)) y) = [] := by simp [pdecls]
    show Said f f' (pdecls f.currFunc (.assign .equal (some t) (.id n (some r)) y)) _
    rw [e]
    refine s2.mono fun κ hk => ?_
    simp only [OkS, OkE]
    rw [d5] at hk
    exact ⟨by simp, fun _ _ => hk.1, hk.2⟩

theorem said_const {n : Name} {l : Lit Nat} {f f' : Front} {r} (h : declareConst n l.const.1 l.const.2 f = .ok r f') :
    Said f f' [] fun _ => True :=
  ⟨evo_const h, (step_const h).cur, (covered_const h).known, fun _ _ _ _ => trivial⟩

theorem said_assign {op : Tok} {l e : SExpr} {f f' : Front} {x : CStmt} (hne : op ≠ .declare) (hl : WfE l) (he : WfE e)
    (h : nameAssign frontOps op l e f = .ok x f') : Said f f' (pdecls f.currFunc x) fun κ => OkS κ f.currFunc x := by
  unfold nameAssign at h
  obtain ⟨l', f1, h1, h⟩ := Act.ok_inv h
  obtain ⟨e', f2, h2, h⟩ := Act.ok_inv h
  have s1 := said_expr hl h1
  have s := s1.after (said_expr he h2)
  rw [s1.cur] at s
  have key : ∀ ann, pdecls f.currFunc (.assign op ann l' e') = [] := by
    intro ann
    cases op <;> first | exact absurd rfl hne | simp [pdecls]
  have s : Said f f2 [] fun κ => OkS κ f.currFunc (.assign op none l' e') :=
    s.mono fun κ hk => by simp only [OkS]; exact ⟨fun hh => absurd hh hne, fun _ _ => hk.1, hk.2⟩
  generalize e'.lit = q at h
  split at h
  · obtain ⟨_, f3, h3, h⟩ := Act.ok_inv h
    cases h
    rw [key]
    exact s.then (said_const h3)
  · cases h
    rw [key]
    exact s

theorem said_func {f f' : Front} {i : Nat} {ps : List (Name × SType)} {r : Option SType} {n : Name} {ps' r'} {f1 f2 f3 f4 f5 : Front} {u w v}
    (h1 : beginFunc n f = .ok i f1) (h2 : nameParams frontOps ps f1 = .ok ps' f2) (h3 : frontOps.params ps' f2 = .ok u f3)
    (h4 : nameRet frontOps r f3 = .ok r' f4) (h5 : frontOps.setRet r' f4 = .ok w f5) (h6 : openScope f5 = .ok v f') :
    Evo f f' ∧ HasFn f' i ∧ f'.currFunc = .at i ∧ KnownVars f f' [] := by
  obtain ⟨e1, c1, hf1, rfl⟩ := evo_begin h1
  obtain ⟨m2, -⟩ := mentions_params ps h2
  obtain ⟨e3, c3⟩ := evo_params _ _ (params_ok ps h2) h3
  have m4 := (mentions_ret h4).1
  obtain ⟨e5, c5⟩ := evo_ret (ret_ok h4) h5
  have e6 := evo_open h6
  have ev := (((e3.trans m4.evo).trans e5).trans e6)
  have hh : Header f f1 { name := [], index := f.numFunctions } := by
    cases h1
    exact ⟨rfl, rfl, rfl, rfl, 0, by simp [Sym.core]⟩
  have hh := ((((hh.adds (adds_params ps h2)).params h3).adds (adds_ret h4)).ret h5).adds (adds_open h6)
  exact ⟨(e1.trans m2.evo).trans ev, (m2.evo.trans ev).after.fn hf1, hh.cur, (hh.covered rfl).known⟩

mutual
/-- **What reading a statement does**: the tree reads only variables whose type is known or declared before. -/
theorem said_stmt : ∀ (s : SStmt) {f f' : Front} {x : CStmt}, WfS s → nameStmt frontOps s f = .ok x f' →
    Said f f' (pdecls f.currFunc x) fun κ => OkS κ f.currFunc x
  | .node line s, f, f', x, hp, h => by
    unfold nameStmt at h
    obtain ⟨y, f1, h1, h⟩ := Act.ok_inv h
    cases h
    simpa [pdecls, OkS] using said_stmt s (by simpa [WfS] using hp) h1
  | .call g args, f, f', x, hp, h => by
    unfold nameStmt at h
    obtain ⟨y, f1, h1, h⟩ := Act.ok_inv h
    cases h
    simpa [pdecls, OkS] using said_exprs (by simpa [WfS] using hp) h1
  | .block ss, f, f', x, hp, h => by
    unfold nameStmt at h
    obtain ⟨_, f1, h1, h⟩ := Act.ok_inv h
    obtain ⟨y, f2, h2, h⟩ := Act.ok_inv h
    obtain ⟨_, f3, h3, h⟩ := Act.ok_inv h
    cases h
    have a := said_open h1
    have b := said_stmts ss (by simpa [WfS] using hp) h2
    rw [a.cur] at b
    simpa [pdecls, OkS] using (a.after b).then (said_close h3)
  | .assign op (some ty) (.id n _) r, f, f', x, hp, h => by
    unfold nameStmt at h
    simp only [WfS] at hp
    exact said_decl (.inl ⟨rfl, hp.1 rfl⟩) hp.2.2.2.1 hp.2.2.2.2 h
  | .assign .declare none (.id n _) r, f, f', x, hp, h => by
    unfold nameStmt at h
    simp only [WfS] at hp
    exact said_decl (.inr ⟨rfl, rfl⟩) hp.2.2.2.1 hp.2.2.2.2 h
  | .proc _ n ps r b, f, f', x, hp, h => by
    unfold nameStmt at h
    replace h := Act.ok_inv h
    obtain ⟨_, f0, h0, h⟩ := h
    replace h0 := requireFalse h0
    obtain ⟨h00, hcur⟩ := h0
    subst h00
    replace h := Act.ok_inv h
    obtain ⟨i, f1, h1, h⟩ := h
    obtain ⟨ps', f2, h2, h⟩ := Act.ok_inv h
    obtain ⟨_, f3, h3, h⟩ := Act.ok_inv h
    obtain ⟨r', f4, h4, h⟩ := Act.ok_inv h
    obtain ⟨_, f5, h5, h⟩ := Act.ok_inv h
    obtain ⟨_, f6, h6, h⟩ := Act.ok_inv h
    obtain ⟨b', f7, h7, h⟩ := Act.ok_inv h
    obtain ⟨_, f8, h8, h⟩ := Act.ok_inv h
    obtain ⟨_, f9, h9, h⟩ := Act.ok_inv h
    cases h
    cases h9
    obtain ⟨ev, hf, hc, kv⟩ := said_func h1 h2 h3 h4 h5 h6
    have b0 := (said_stmt b (by simpa [WfS] using hp) h7).then (said_close h8)
    rw [hc] at b0
    have e9 : Evo f8 { f8 with currFunc := .none } := evo_same rfl
    refine ⟨(ev.trans b0.evo).trans e9, hcur.symm, ?_, fun ha _ κ hb => ?_⟩
    · have := kv.trans b0.vars b0.evo.after
      intro d hn hd
      simp only [pdecls]
      rcases this d hn hd with h | h | h
      · exact .inl h
      · exact .inr (.inl (by simpa using h))
      · exact .inr (.inr h)
    · simp only [OkS]
      have hb := hb.first e9.after
      have af := (b0.evo.trans e9).after
      exact ⟨hb.fn _ (b0.evo.after.fn hf), b0.ok (ev.args ha) (.inr ⟨_, hc, hf⟩) κ (hb.skip kv b0.evo.after)⟩
  | .ifThen c b, f, f', x, hp, h => by
    unfold nameStmt at h
    obtain ⟨c', f1, h1, h⟩ := Act.ok_inv h
    obtain ⟨b', f2, h2, h⟩ := Act.ok_inv h
    cases h
    simp only [WfS] at hp
    have a := said_expr hp.1 h1
    have k := said_stmt b hp.2 h2
    rw [a.cur] at k
    simpa [pdecls, OkS] using a.after k
  | .ifElse c b e, f, f', x, hp, h => by
    unfold nameStmt at h
    obtain ⟨c', f1, h1, h⟩ := Act.ok_inv h
    obtain ⟨b', f2, h2, h⟩ := Act.ok_inv h
    obtain ⟨e', f3, h3, h⟩ := Act.ok_inv h
    cases h
    simp only [WfS] at hp
    have a := said_expr hp.1 h1
    have k := said_stmt b hp.2.1 h2
    have l := said_stmt e hp.2.2 h3
    rw [k.cur, a.cur] at l
    rw [a.cur] at k
    simpa [pdecls, OkS] using a.after (k.next l)
  | .while c b, f, f', x, hp, h => by
    unfold nameStmt at h
    obtain ⟨c', f1, h1, h⟩ := Act.ok_inv h
    obtain ⟨_, f2, h2, h⟩ := Act.ok_inv h
    obtain ⟨b', f3, h3, h⟩ := Act.ok_inv h
    obtain ⟨_, f4, h4, h⟩ := Act.ok_inv h
    cases h
    simp only [WfS] at hp
    have a := (said_expr hp.1 h1).then (said_open h2)
    have k := said_stmt b hp.2 h3
    rw [a.cur] at k
    simpa [pdecls, OkS] using (a.after k).then (said_close h4)
  | .for i c s b, f, f', x, hp, h => by
    unfold nameStmt at h
    obtain ⟨_, f1, h1, h⟩ := Act.ok_inv h
    obtain ⟨i', f2, h2, h⟩ := Act.ok_inv h
    obtain ⟨c', f3, h3, h⟩ := Act.ok_inv h
    obtain ⟨s', f4, h4, h⟩ := Act.ok_inv h
    obtain ⟨b', f5, h5, h⟩ := Act.ok_inv h
    obtain ⟨_, f6, h6, h⟩ := Act.ok_inv h
    cases h
    simp only [WfS] at hp
    have a := said_open h1
    have k := said_stmt i hp.1 h2
    have e := said_expr hp.2.1 h3
    have l := said_stmt s hp.2.2.1 h4
    have n := said_stmt b hp.2.2.2 h5
    rw [l.cur, e.cur, k.cur, a.cur] at n
    rw [e.cur, k.cur, a.cur] at l
    rw [k.cur, a.cur] at e
    rw [a.cur] at k
    simpa [pdecls, OkS] using (a.after (k.next (e.after (l.next n)))).then (said_close h6)
  | .ret none, f, f', x, hp, h => by
    unfold nameStmt at h
    obtain ⟨_, f1, h1, h⟩ := Act.ok_inv h
    cases h
    obtain ⟨e1, e2⟩ := adds_require h1
    subst e1
    refine ⟨.refl _, rfl, by simpa [pdecls] using (said_refl f').vars, fun ha hc κ hb => ?_⟩
    simp only [OkS]
    refine ⟨?_, by simp⟩
    rcases hc with hc | ⟨i, hc, hi⟩
    · simp [hc] at e2
    · exact ⟨i, hc, hb.fn i hi⟩
  | .ret (some e), f, f', x, hp, h => by
    unfold nameStmt at h
    obtain ⟨_, f1, h1, h⟩ := Act.ok_inv h
    obtain ⟨_, f2, h2, h⟩ := Act.ok_inv h
    obtain ⟨_, f3, h3, h⟩ := Act.ok_inv h
    cases h
    obtain ⟨e1, e3⟩ := adds_require h1
    have e2 := adds_value h2
    subst e1; subst e2
    simp only [WfS] at hp
    have a := said_expr hp h3
    refine ⟨a.evo, a.cur, by simpa [pdecls] using a.vars, fun ha hc κ hb => ?_⟩
    simp only [OkS]
    refine ⟨?_, fun x hx => by cases hx; exact a.ok ha hc κ hb⟩
    rcases hc with hc | ⟨i, hc, hi⟩
    · simp [hc] at e3
    · exact ⟨i, hc, hb.fn i (a.evo.after.fn hi)⟩
  | .brk, f, f', x, hp, h => by
    cases h; simpa [pdecls, OkS] using said_refl f
  | .cont, f, f', x, hp, h => by
    cases h; simpa [pdecls, OkS] using said_refl f
  | .use m as a, f, f', x, hp, h => by
    unfold nameStmt at h
    obtain ⟨_, f1, h1, h⟩ := Act.ok_inv h
    cases h
    rw [adds_top h1]
    simpa [pdecls, OkS] using said_refl f
  | .struct n fs, f, f', x, hp, h => by
    unfold nameStmt at h
    obtain ⟨_, f1, h1, h⟩ := Act.ok_inv h
    obtain ⟨_, f2, h2, h⟩ := Act.ok_inv h
    obtain ⟨_, f3, h3, h⟩ := Act.ok_inv h
    obtain ⟨_, f4, h4, h⟩ := Act.ok_inv h
    cases h
    have e1 := (adds_require h1).1
    subst e1
    have a := ((adds_beginStruct h2).trans (adds_fields n fs h3)).trans (adds_endStruct h4)
    have e := ((evo_beginStruct h2).trans (evo_fields n fs h3)).trans (evo_endStruct h4)
    simpa [pdecls, OkS] using said_adds e a
  | .assign op ann l r, f, f', x, hp, h => by
    by_cases h1 : ∃ n u, l = .id n u ∧ (ann.isSome = true ∨ op = .declare)
    · obtain ⟨n, u, rfl, h1⟩ := h1
      simp only [WfS] at hp
      cases ann with
      | some ty =>
        unfold nameStmt at h
        exact said_decl (.inl ⟨rfl, hp.1 rfl⟩) hp.2.2.2.1 hp.2.2.2.2 h
      | none =>
        rcases h1 with h1 | rfl
        · cases h1
        · unfold nameStmt at h
          exact said_decl (.inr ⟨rfl, rfl⟩) hp.2.2.2.1 hp.2.2.2.2 h
    · have e : nameStmt frontOps (.assign op ann l r) = nameAssign frontOps op l r := by
        rw [nameStmt]
        · rintro ty n u rfl rfl; exact h1 ⟨n, u, rfl, .inl rfl⟩
        · rintro n u rfl rfl rfl; exact h1 ⟨n, u, rfl, .inr rfl⟩
      rw [e] at h
      simp only [WfS] at hp
      refine said_assign (fun hd => ?_) hp.2.2.1 hp.2.2.2.1 h
      obtain ⟨n, u, rfl⟩ := hp.2.1 hd
      exact h1 ⟨n, u, rfl, .inr hd⟩
/-- See `said_stmt`. -/
theorem said_stmts : ∀ (ss : List SStmt) {f f' : Front} {x : List CStmt}, WfSs ss → nameStmts frontOps ss f = .ok x f' →
    Said f f' (pdeclsL f.currFunc x) fun κ => OkSs κ f.currFunc x
  | [], f, f', x, hp, h => by cases h; simpa [pdeclsL, OkSs] using said_refl f
  | s :: ss, f, f', x, hp, h => by
    unfold nameStmts at h
    obtain ⟨y, f1, h1, h⟩ := Act.ok_inv h
    obtain ⟨ys, f2, h2, h⟩ := Act.ok_inv h
    cases h
    simp only [WfSs] at hp
    have a := said_stmt s hp.1 h1
    have b := said_stmts ss hp.2 h2
    rw [a.cur] at b
    simpa [pdeclsL, OkSs] using a.next b
end

end Tiny
