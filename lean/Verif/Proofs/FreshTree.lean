import Verif.Proofs.NameTables

/-!
# Each variable of a parsed program is declared once
-/

namespace Tiny
open Spec

/-- A place without a type, and the variable which is there. -/
inductive Moves (l : List Sym) : Place → Option Nat × VarSym → Prop
  | glob {i v} : l[i]? = some (.glob v) → v.tag = none → Moves l (.none, .glob i) (none, .glob v.idx.toNat)
  | loc {j k fi v} : l[j]? = some (.func fi) → fi.locals[k]? = some v → v.tag = none →
      Moves l (.at j, .loc k) (some fi.index, .loc v.idx)

theorem tagOf_glob {f : Front} {c : Cur} {i : Nat} (h : tagOf f (c, .glob i) = some none) :
    ∃ v, f.syms[i]? = some (.glob v) ∧ v.tag = none := by
  simp only [tagOf, tagIn, List.getElem?_map] at h
  cases hx : f.syms[i]? with
  | none => rw [hx] at h; cases h
  | some x =>
    rw [hx] at h
    cases x <;> simp only [Option.map_some, Sym.core, neutral, reduceCtorEq] at h
    exact ⟨_, rfl, by simpa [VarInfo.core] using h⟩

theorem tagOf_loc {f : Front} {j k : Nat} (h : tagOf f (.at j, .loc k) = some none) :
    ∃ fi v, f.syms[j]? = some (.func fi) ∧ fi.locals[k]? = some v ∧ v.tag = none := by
  simp only [tagOf, tagIn, List.getElem?_map] at h
  cases hx : f.syms[j]? with
  | none => rw [hx] at h; cases h
  | some x =>
    rw [hx] at h
    cases x with
    | func fi =>
      simp only [Option.map_some, Sym.core, List.getElem?_map] at h
      cases hv : fi.locals[k]? with
      | none => rw [hv] at h; cases h
      | some v =>
        rw [hv] at h
        exact ⟨fi, v, rfl, hv, by simpa [VarInfo.core] using h⟩
    | _ => cases h

/-- Two lists, related element by element. -/
inductive Pairs {α β : Type} (R : α → β → Prop) : List α → List β → Prop
  | nil : Pairs R [] []
  | cons {a b as bs} : R a b → Pairs R as bs → Pairs R (a :: as) (b :: bs)

theorem forall₂_append {α β : Type} {R : α → β → Prop} {a c : List α} {b d : List β} (h : Pairs R a b)
    (k : Pairs R c d) : Pairs R (a ++ c) (b ++ d) := by
  induction h with
  | nil => exact k
  | cons h _ ih => exact .cons h ih

/-- The declarations of the resolved tree are those of the parsed one. -/
theorem decls_moves {f : Front} {s : CStmt} {s' : Stmt} (hr : ResolvedS f s s') :
    (∀ d ∈ pdecls f.currFunc s, tagOf f d = some none) →
    Pairs (Moves f.syms) (pdecls f.currFunc s) (decls (curFn f) s') := by
  induction hr with
  | node _ ih => intro h; simp only [pdecls, decls] at h ⊢; exact ih h
  | call _ => intro h; simp only [pdecls, decls]; exact .nil
  | nil => intro h; simp only [pdecls, decls, pdeclsL, declsL]; exact .nil
  | cons _ _ ih1 ih2 =>
    intro h
    simp only [pdecls, decls, pdeclsL, declsL, List.mem_append] at h ih1 ih2 ⊢
    exact forall₂_append (ih1 fun d hd => h d (.inl hd)) (ih2 fun d hd => h d (.inr hd))
  | @assign f op ann l l' r r' hop hl _ =>
    intro h
    by_cases ho : op = .declare
    · subst ho
      cases hl with
      | @id n r s t hs =>
        simp only [pdecls, List.mem_singleton, forall_eq] at h ⊢
        cases r with
        | glob i =>
          obtain ⟨v, hv, ht⟩ := tagOf_glob h
          simp only [symInfo, hv, Chk.ok.injEq, Prod.mk.injEq] at hs
          rw [← hs.1]
          simp only [decls, place]
          exact .cons (.glob hv ht) .nil
        | loc k =>
          simp only [place] at h ⊢
          cases hc : f.currFunc with
          | none => rw [hc] at h; cases h
          | dangling => rw [hc] at h; cases h
          | «at» j =>
            rw [hc] at h
            obtain ⟨fi, v, hj, hv, ht⟩ := tagOf_loc h
            simp only [symInfo, hc, hj, hv, Chk.ok.injEq, Prod.mk.injEq] at hs
            rw [← hs.1]
            simp only [decls, curFn, hc, hj]
            exact .cons (.loc hj hv ht) .nil
        | arg k => cases hc : f.currFunc <;> rw [hc] at h <;> cases h
      | _ => simp only [pdecls, decls]; exact .nil
    · have e1 : pdecls f.currFunc (.assign op ann l r) = [] := by
        unfold pdecls; split <;> simp_all
      have e2 : decls (curFn f) (.assign op l' r') = [] := by
        unfold decls; split <;> simp_all
      rw [e1, e2]; exact .nil
  | @other f op ann l r r' hop _ =>
    intro h
    have e1 : pdecls f.currFunc (.assign op ann l r) = [] := by
      unfold pdecls; split <;> simp_all
    have e2 : decls (curFn f) (.assign op .null r') = [] := by
      unfold decls; split <;> simp_all
    rw [e1, e2]; exact .nil
  | @proc f decl n ps r b b' fi hf _ ih =>
    intro h
    simp only [pdecls, decls] at h ⊢
    have e : curFn { f with currFunc := .at decl } = some fi.index := by simp [curFn, hf]
    rw [e] at ih
    exact ih h
  | ifThen _ _ ih => intro h; simp only [pdecls, decls] at h ⊢; exact ih h
  | ifElse _ _ _ ih1 ih2 =>
    intro h
    simp only [pdecls, decls, List.mem_append] at h ⊢
    exact forall₂_append (ih1 fun d hd => h d (.inl hd)) (ih2 fun d hd => h d (.inr hd))
  | «while» _ _ ih => intro h; simp only [pdecls, decls] at h ⊢; exact ih h
  | «for» _ _ _ _ ih1 ih2 ih3 =>
    intro h
    simp only [pdecls, decls, List.mem_append] at h ⊢
    exact forall₂_append (ih1 fun d hd => h d (.inl hd))
      (forall₂_append (ih2 fun d hd => h d (.inr (.inl hd))) (ih3 fun d hd => h d (.inr (.inr hd))))
  | retNone => intro h; simp only [pdecls, decls]; exact .nil
  | ret _ => intro h; simp only [pdecls, decls]; exact .nil
  | brk => intro h; simp only [pdecls, decls]; exact .nil
  | cont => intro h; simp only [pdecls, decls]; exact .nil
  | use => intro h; simp only [pdecls, decls]; exact .nil
  | struct => intro h; simp only [pdecls, decls, declsL]; exact .nil

theorem Moves.inj {f : Front} (ht : Slots f) {p q : Place} {d : Option Nat × VarSym} (h : Moves f.syms p d)
    (k : Moves f.syms q d) : p = q := by
  cases h with
  | @glob i v h1 h2 =>
    generalize e : ((none : Option Nat), VarSym.glob v.idx.toNat) = d at k
    cases k with
    | @glob j u k1 k2 =>
      simp only [Prod.mk.injEq, VarSym.glob.injEq, true_and] at e
      have a := glob_nonneg ht (List.mem_of_getElem? h1)
      have b := glob_nonneg ht (List.mem_of_getElem? k1)
      have : v.idx = u.idx := by omega
      -- positions of globals with the same number
      have key : ∀ {l : List Sym} {i j : Nat} {v u : VarInfo}, (l.filterMap Sym.globIdx).Pairwise (· < ·) →
          l[i]? = some (.glob v) → l[j]? = some (.glob u) → v.idx = u.idx → i = j := by
        intro l
        induction l with
        | nil => intro i j v u _ h; simp at h
        | cons x xs ih =>
          intro i j v u hp hi hj e
          have hp' : (xs.filterMap Sym.globIdx).Pairwise (· < ·) := by
            cases hx : x.globIdx with
            | none => rw [List.filterMap_cons, hx] at hp; exact hp
            | some y => rw [List.filterMap_cons, hx] at hp; exact (List.pairwise_cons.1 hp).2
          have lt : ∀ {w u : VarInfo} {j : Nat}, x = .glob w → xs[j]? = some (.glob u) → w.idx < u.idx := by
            intro w u j hx hq
            subst hx
            simp only [List.filterMap_cons, Sym.globIdx] at hp
            exact (List.pairwise_cons.1 hp).1 _ (List.mem_filterMap.2 ⟨_, List.mem_of_getElem? hq, by rfl⟩)
          cases i with
          | zero =>
            cases j with
            | zero => rfl
            | succ j =>
              simp only [List.getElem?_cons_zero, Option.some.injEq, List.getElem?_cons_succ] at hi hj
              have := lt hi hj; omega
          | succ i =>
            cases j with
            | zero =>
              simp only [List.getElem?_cons_zero, Option.some.injEq, List.getElem?_cons_succ] at hi hj
              have := lt hj hi; omega
            | succ j =>
              simp only [List.getElem?_cons_succ] at hi hj
              rw [ih hp' hi hj e]
      rw [key ht.globs h1 k1 this]
    | loc _ _ _ => cases e
  | @loc j i fi v h1 h2 h3 =>
    generalize e : (some fi.index, VarSym.loc v.idx) = d at k
    cases k with
    | glob _ _ => cases e
    | @loc j' i' fi' v' k1 k2 k3 =>
      simp only [Prod.mk.injEq, Option.some.injEq, VarSym.loc.injEq] at e
      have a := ht.locals fi (List.mem_of_getElem? h1) i v h2
      have b := ht.locals fi' (List.mem_of_getElem? k1) i' v' k2
      have key : ∀ {l : List Sym} {i j : Nat} {v u : FuncInfo}, (l.filterMap Sym.funcIdx).Pairwise (· < ·) →
          l[i]? = some (.func v) → l[j]? = some (.func u) → v.index = u.index → i = j := by
        intro l
        induction l with
        | nil => intro i j v u _ h; simp at h
        | cons x xs ih =>
          intro i j v u hp hi hj e
          have hp' : (xs.filterMap Sym.funcIdx).Pairwise (· < ·) := by
            cases hx : x.funcIdx with
            | none => rw [List.filterMap_cons, hx] at hp; exact hp
            | some y => rw [List.filterMap_cons, hx] at hp; exact (List.pairwise_cons.1 hp).2
          have lt : ∀ {w u : FuncInfo} {j : Nat}, x = .func w → xs[j]? = some (.func u) → w.index < u.index := by
            intro w u j hx hq
            subst hx
            simp only [List.filterMap_cons, Sym.funcIdx] at hp
            exact (List.pairwise_cons.1 hp).1 _ (List.mem_filterMap.2 ⟨_, List.mem_of_getElem? hq, by rfl⟩)
          cases i with
          | zero =>
            cases j with
            | zero => rfl
            | succ j =>
              simp only [List.getElem?_cons_zero, Option.some.injEq, List.getElem?_cons_succ] at hi hj
              have := lt hi hj; omega
          | succ i =>
            cases j with
            | zero =>
              simp only [List.getElem?_cons_zero, Option.some.injEq, List.getElem?_cons_succ] at hi hj
              have := lt hj hi; omega
            | succ j =>
              simp only [List.getElem?_cons_succ] at hi hj
              rw [ih hp' hi hj e]
      rw [key ht.funcs h1 k1 e.1]
      have : i = i' := by omega
      rw [this]

theorem Moves.untyped {f : Front} (ht : Tables f) {p : Place} {d : Option Nat × VarSym} (h : Moves f.syms p d) :
    (baseEnv f).Untyped d := by
  cases h with
  | @glob i v h1 h2 =>
    have hm := List.mem_of_getElem? h1
    refine .glob ?_
    show typeAt _ _ = none
    rw [glob_nonneg ht.slots hm, typeAt_glob ht.slots hm, h2]
  | @loc j k fi v h1 h2 h3 =>
    have hm := List.mem_of_getElem? h1
    obtain ⟨r, -, hb⟩ := baseEnv_body ht hm
    refine .loc hb ?_
    rw [funcVars_loc ht.slots hm h2, h3]

theorem nodup_moves {α β : Type} {R : α → β → Prop} (hR : ∀ a a' b, R a b → R a' b → a = a') {as : List α} {bs : List β}
    (h : Pairs R as bs) (hn : as.Nodup) : bs.Nodup := by
  induction h with
  | nil => exact List.nodup_nil
  | @cons a b as bs h1 h2 ih =>
    obtain ⟨n1, n2⟩ := List.nodup_cons.1 hn
    refine List.nodup_cons.2 ⟨fun hb => n1 ?_, ih n2⟩
    have : ∀ {as : List α} {bs : List β}, Pairs R as bs → b ∈ bs → ∃ a' ∈ as, R a' b := by
      intro as bs h
      induction h with
      | nil => simp
      | @cons a b' as bs h1 _ ih =>
        intro hb
        rcases List.mem_cons.1 hb with rfl | hb
        · exact ⟨a, by simp, h1⟩
        · obtain ⟨a', ha, hr⟩ := ih hb
          exact ⟨a', by simp [ha], hr⟩
    obtain ⟨a', ha, hr⟩ := this h2 hb
    rw [hR a a' b h1 hr]
    exact ha

theorem mem_moves {α β : Type} {R : α → β → Prop} {as : List α} {bs : List β} (h : Pairs R as bs) {b : β}
    (hb : b ∈ bs) : ∃ a, R a b := by
  induction h with
  | nil => simp at hb
  | cons h1 _ ih =>
    rcases List.mem_cons.1 hb with rfl | hb
    · exact ⟨_, h1⟩
    · exact ih hb

/-- Every variable is declared once, and has no type before it is checked. -/
theorem fresh_tree {f : Front} (ht : Tables f) {s : CStmt} {s' : Stmt} (hr : ResolvedS f s s')
    (hn : (pdecls f.currFunc s).Nodup) (hu : ∀ d ∈ pdecls f.currFunc s, tagOf f d = some none) :
    Fresh (baseEnv f) (curFn f) s' := by
  have hm := decls_moves hr hu
  refine ⟨nodup_moves (R := Moves f.syms) (fun a a' b h k => Moves.inj ht.slots h k) hm hn, fun d hd => ?_⟩
  obtain ⟨p, hp⟩ := mem_moves hm hd
  exact hp.untyped ht

/-- What the parser makes of a program is what the type checker expects. -/
theorem named_program {ss : List SStmt} {f f' : Front} {xs : List CStmt} (ht : Tables f) (hc : f.currFunc = .none)
    (hp : Plains ss) (h : nameStmts frontOps ss f = .ok xs f') :
    Tables f' ∧ f'.currFunc = .none ∧ DeclareOwn xs ∧
      ∀ xs', ResolvedS f' (.block xs) (.block xs') → Fresh (baseEnv f') none (.block xs') := by
  obtain ⟨a, b⟩ := step_stmts ss hp h
  have hc' : f'.currFunc = .none := a.cur.trans hc
  refine ⟨a.tables ht, hc', b, fun xs' hr => ?_⟩
  have e : curFn f' = none := by simp [curFn, hc']
  rw [← e]
  refine fresh_tree (a.tables ht) hr ?_ ?_
  · simp only [pdecls]; rw [hc', ← hc]; exact a.nodup
  · simp only [pdecls]; rw [hc', ← hc]; exact a.untagged

end Tiny
