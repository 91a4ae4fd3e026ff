import Verif.Proofs.NameMono
import Verif.Proofs.CodegenStmt

/-!
# What the type checker leaves alone, also when it reports an error
-/

namespace Tiny
open Spec

/-- The symbols below `N` are the same; of the others only the types of variables may have changed. -/
structure RKeep (N : Nat) (f f' : Front) : Prop where
  bare : f'.syms.map Sym.bare = f.syms.map Sym.bare
  old : ∀ i, i < N → f'.syms[i]? = f.syms[i]?
  globals : f'.numGlobalVars = f.numGlobalVars
  functions : f'.numFunctions = f.numFunctions
  foreign : f'.numForeign = f.numForeign
  strings : f'.strings = f.strings

theorem RKeep.refl (N : Nat) (f : Front) : RKeep N f f := ⟨rfl, fun _ _ => rfl, rfl, rfl, rfl, rfl⟩

theorem RKeep.trans {N : Nat} {f g h : Front} (a : RKeep N f g) (b : RKeep N g h) : RKeep N f h :=
  ⟨b.bare.trans a.bare, fun i hi => (b.old i hi).trans (a.old i hi), b.globals.trans a.globals,
    b.functions.trans a.functions, b.foreign.trans a.foreign, b.strings.trans a.strings⟩

theorem RKeep.len {N : Nat} {f g : Front} (a : RKeep N f g) : g.syms.length = f.syms.length := by
  have := congrArg List.length a.bare
  simpa using this

/-- With current function `c` and symbols `B` (but for types of variables), the action keeps the symbols below `N`. -/
def RH {α : Type} (N : Nat) (c : Cur) (B : List Sym) (x : Act Front α) (Q : α → Prop) : Prop :=
  ∀ f : Front, f.currFunc = c → f.syms.map Sym.bare = B → match x f with
    | .ok a f' => RKeep N f f' ∧ f'.currFunc = c ∧ Q a
    | .err f' => RKeep N f f'
    | _ => True

section
variable {α β : Type} {N : Nat} {c : Cur} {B : List Sym}

theorem RH.bind {x : Act Front α} {g : α → Act Front β} {Q : α → Prop} {R : β → Prop} (hx : RH N c B x Q)
    (hg : ∀ a, Q a → RH N c B (g a) R) : RH N c B (x >>= g) R := by
  intro f hc hB
  have h1 := hx f hc hB
  rw [Act.bind_apply]
  cases hxs : x f with
  | ok a f1 =>
    rw [hxs] at h1
    have h2 := hg a h1.2.2 f1 h1.2.1 (h1.1.bare.trans hB)
    simp only
    cases hfs : g a f1 with
    | ok b f2 => rw [hfs] at h2; exact ⟨h1.1.trans h2.1, h2.2⟩
    | err f2 => rw [hfs] at h2; exact h1.1.trans h2
    | _ => trivial
  | err f1 => rw [hxs] at h1; exact h1
  | _ => trivial

theorem RH.pure {a : α} {Q : α → Prop} (h : Q a) : RH N c B (Pure.pure a : Act Front α) Q := fun f hc _ => ⟨.refl _ f, hc, h⟩
theorem rh_err {Q : α → Prop} : RH N c B (.report : Act Front α) Q := fun f _ _ => .refl _ f
theorem rh_fail {Q : α → Prop} : RH N c B (.fail : Act Front α) Q := fun _ _ _ => trivial
theorem rh_ub {Q : α → Prop} : RH N c B (.undef : Act Front α) Q := fun _ _ _ => trivial

theorem rh_check {x : Front → Chk α} {Q : α → Prop} (h : ∀ f a, f.currFunc = c → f.syms.map Sym.bare = B → x f = .ok a → Q a) :
    RH N c B (.check x) Q := by
  intro f hc hB
  unfold Act.check
  cases hx : x f with
  | ok a => exact ⟨.refl _ f, hc, h f a hc hB hx⟩
  | err => exact .refl _ f
  | _ => trivial

theorem rh_if {p : Prop} [Decidable p] {x y : Act Front α} {Q : α → Prop} (hx : p → RH N c B x Q) (hy : ¬ p → RH N c B y Q) :
    RH N c B (if p then x else y) Q := by
  by_cases h : p
  · rw [if_pos h]; exact hx h
  · rw [if_neg h]; exact hy h

theorem rh_current {Q : Option FuncInfo → Prop} (h : ∀ o, Q o) : RH N c B currentFunc Q := by
  intro f hc _
  unfold currentFunc
  cases f.currFunc with
  | none => exact ⟨.refl _ f, by assumption, h _⟩
  | dangling => trivial
  | «at» i =>
    simp only
    cases hi : f.syms[i]? with
    | none => trivial
    | some x => cases x <;> first | trivial | exact ⟨.refl _ f, by assumption, h _⟩

end

/-- The variable belongs to a symbol from position `N` on. -/
def PlaceGe (N : Nat) : Place → Prop
  | (_, .glob i) => N ≤ i
  | (.at j, .loc _) => N ≤ j
  | _ => False

theorem rkeep_set {N : Nat} {f : Front} {i : Nat} {x y : Sym} (hi : f.syms[i]? = some x) (e : y.bare = x.bare) (hN : N ≤ i) :
    RKeep N f { f with syms := f.syms.set i y } := by
  refine ⟨?_, fun k hk => ?_, rfl, rfl, rfl, rfl⟩
  · apply List.ext_getElem?
    intro k
    simp only [List.getElem?_map]
    by_cases hk : k = i
    · subst hk
      have hlt := (List.getElem?_eq_some_iff.1 hi).1
      rw [List.getElem?_set_self hlt, hi]
      simp [e]
    · simp [List.getElem?_set, Ne.symm hk]
  · simp only
    rw [List.getElem?_set_ne (by omega)]

theorem rh_setTag {N : Nat} {c : Cur} {B : List Sym} {x : SymRef} (t : Tag) (hp : PlaceGe N (place c x)) :
    RH N c B (setVarTag (some x) t) fun _ => True := by
  intro f hc hB
  unfold setVarTag
  cases x with
  | glob i =>
    simp only
    cases hi : f.syms[i]? with
    | none => trivial
    | some y =>
      cases y <;> first | trivial | skip
      exact ⟨rkeep_set hi (by simp [Sym.bare, VarInfo.bare]) hp, hc, trivial⟩
  | loc k =>
    unfold updateFunc
    subst hc
    cases hc : f.currFunc with
    | none => trivial
    | dangling => trivial
    | «at» i =>
      simp only
      rw [hc] at hp
      cases hi : f.syms[i]? with
      | none => trivial
      | some y =>
        cases y <;> first | trivial | skip
        next fi =>
        have := rkeep_set hi (y := .func { fi with locals := fi.locals.modify k fun v => { v with tag := some t } })
          (by simp [Sym.bare, modify_bare]) hp
        exact ⟨⟨this.bare, this.old, rfl, rfl, rfl, rfl⟩, rfl, trivial⟩
  | arg k =>
    cases c <;> exact hp.elim

theorem rh_cond {N : Nat} {c : Cur} {B : List Sym} (e : CExpr) : RH N c B (resolveCond e) fun _ => True :=
  (rh_check (Q := fun _ => True) fun _ _ _ _ _ => trivial).bind fun a _ => rh_if (fun _ => rh_err) fun _ => .pure trivial

theorem rh_ret {N : Nat} {c : Cur} {B : List Sym} (e : Option CExpr) : RH N c B (resolveRet e) fun s => ids s = [] := by
  refine (rh_current (Q := fun _ => True) fun _ => trivial).bind fun o _ => ?_
  cases o with
  | none => exact rh_fail
  | some fi =>
    cases e with
    | none =>
      simp only
      cases fi.ret with
      | none => exact rh_ub
      | some r => exact rh_if (fun _ => rh_err) fun _ => .pure rfl
    | some e =>
      refine (rh_check (Q := fun _ => True) fun _ _ _ _ _ => trivial).bind fun a _ => ?_
      cases fi.ret with
      | none => exact rh_ub
      | some r => exact rh_if (fun _ => .pure rfl) fun _ => rh_err

theorem rh_assign {N : Nat} {c : Cur} {B : List Sym} (op : Tok) (ann : Option Tag) (l r : CExpr)
    (hp : ∀ d ∈ pdecls c (.assign op ann l r), PlaceGe N d) :
    RH N c B (resolveAssign op l r) fun s => ids s = [] := by
  unfold resolveAssign
  refine rh_if (fun ho => ?_) fun _ => rh_if (fun _ => ?_) fun _ => ?_
  · subst ho
    refine (rh_check (Q := fun a => l = .id a.1 (some a.2.1)) fun f a _ _ h => ?_).bind fun a ha => ?_
    · unfold declared at h
      split at h
      · split at h <;> cases h
        rfl
      · cases h
    · obtain ⟨n, x, s⟩ := a
      simp only at ha
      subst ha
      refine (rh_check (Q := fun _ => True) fun _ _ _ _ _ => trivial).bind fun b _ => rh_if (fun _ => rh_err) fun _ => ?_
      exact (rh_setTag _ (hp _ (by simp [pdecls]))).bind fun _ _ => .pure rfl
  · exact (rh_check (Q := fun _ => True) fun _ _ _ _ _ => trivial).bind fun a _ =>
      (rh_check (Q := fun _ => True) fun _ _ _ _ _ => trivial).bind fun b _ => rh_if (fun _ => .pure rfl) fun _ => rh_err
  · exact (rh_check (Q := fun _ => True) fun _ _ _ _ _ => trivial).bind fun a _ => .pure rfl

/-- The numbers of the functions at these positions. -/
def funIds (B : List Sym) (ps : List Nat) : List Nat := ps.filterMap fun j => B[j]?.bind Sym.funcIdx

theorem funIds_append (B : List Sym) (p q : List Nat) : funIds B (p ++ q) = funIds B p ++ funIds B q := by
  simp [funIds]

mutual
theorem rh_S {N : Nat} {B : List Sym} : ∀ (x : CStmt) {c : Cur}, (∀ d ∈ pdecls c x, PlaceGe N d) →
    RH N c B (resolveS x) fun s => (ids s).Perm (funIds B (procPos x))
  | .node line x, c, hp => by
    unfold resolveS
    exact (rh_S x (by simpa [pdecls] using hp)).bind fun s hs => .pure (by simpa [ids, procs, procPos] using hs)
  | .call g args, c, hp => by
    unfold resolveS
    refine (rh_check (Q := fun _ => True) fun _ _ _ _ _ => trivial).bind fun a _ => ?_
    obtain ⟨e, t⟩ := a
    cases e <;> first | exact rh_ub | exact .pure (.refl _)
  | .block ss, c, hp => by
    unfold resolveS
    exact (rh_Ss ss (by simpa [pdecls] using hp)).bind fun s hs => .pure (by simpa [ids, procs, procPos] using hs)
  | .assign op ann l r, c, hp => by
    unfold resolveS
    intro f h1 h2
    have := rh_assign (B := B) op ann l r hp f h1 h2
    cases hr : resolveAssign op l r f <;> rw [hr] at this <;> first | exact this | skip
    exact ⟨this.1, this.2.1, by show (ids _).Perm _; rw [this.2.2]; simp [procPos, funIds]⟩
  | .proc d n ps r b, c, hp => by
    intro f hc hB
    have ih := rh_S (B := B) b (c := .at d) (by simpa [pdecls] using hp)
    unfold resolveS
    rw [Act.bind_apply]
    simp only [Act.get]
    rw [Act.bind_apply]
    simp only [Act.modify]
    rw [Act.bind_apply]
    simp only [Act.check, procInfo]
    cases hd : f.syms[d]? with
    | none => trivial
    | some y =>
      cases y <;> first | trivial | skip
      next fi =>
      simp only
      rw [Act.bind_apply]
      have h1 := ih { f with currFunc := .at d } rfl hB
      cases hb : resolveS b { f with currFunc := .at d } with
      | ok b' f1 =>
        rw [hb] at h1
        refine ⟨⟨h1.1.bare, h1.1.old, h1.1.globals, h1.1.functions, h1.1.foreign, h1.1.strings⟩, hc, ?_⟩
        have e : B[d]? = some (Sym.func fi).bare := by rw [← hB, List.getElem?_map, hd]; rfl
        simp only [ids, procs, List.map_cons, procPos, funIds, List.filterMap_cons, e, Option.bind_some]
        exact h1.2.2.cons fi.index
      | err f1 =>
        rw [hb] at h1
        exact ⟨h1.bare, h1.old, h1.globals, h1.functions, h1.foreign, h1.strings⟩
      | _ => trivial
  | .ifThen e b, c, hp => by
    unfold resolveS
    exact (rh_cond e).bind fun _ _ => (rh_S b (by simpa [pdecls] using hp)).bind fun s hs => .pure (by simpa [ids, procs, procPos] using hs)
  | .ifElse e b a, c, hp => by
    unfold resolveS
    simp only [pdecls, List.mem_append] at hp
    exact (rh_cond e).bind fun _ _ => (rh_S b fun d hd => hp d (.inl hd)).bind fun s hs =>
      (rh_S a fun d hd => hp d (.inr hd)).bind fun t ht => .pure (by
        simpa only [ids, procs, List.map_append, procPos, funIds_append] using hs.append ht)
  | .while e b, c, hp => by
    unfold resolveS
    exact (rh_cond e).bind fun _ _ => (rh_S b (by simpa [pdecls] using hp)).bind fun s hs => .pure (by simpa [ids, procs, procPos] using hs)
  | .for i e t b, c, hp => by
    unfold resolveS
    simp only [pdecls, List.mem_append] at hp
    exact (rh_S i fun d hd => hp d (.inl hd)).bind fun i' hi => (rh_cond e).bind fun _ _ =>
      (rh_S t fun d hd => hp d (.inr (.inl hd))).bind fun t' ht =>
      (rh_S b fun d hd => hp d (.inr (.inr hd))).bind fun b' hb => .pure (by
        simp only [ids, procs, List.map_append, procPos, funIds_append, List.append_assoc]
        exact hi.append (List.perm_append_comm.trans (ht.append hb)))
  | .ret e, c, hp => by
    unfold resolveS
    intro f h1 h2
    have := rh_ret (N := N) (B := B) e f h1 h2
    cases hr : resolveRet e f <;> rw [hr] at this <;> first | exact this | skip
    exact ⟨this.1, this.2.1, by show (ids _).Perm _; rw [this.2.2]; simp [procPos, funIds]⟩
  | .brk, c, hp => .pure (.refl _)
  | .cont, c, hp => .pure (.refl _)
  | .use _ _ _, c, hp => .pure (.refl _)
  | .struct _ _, c, hp => .pure (.refl _)
theorem rh_Ss {N : Nat} {B : List Sym} : ∀ (xs : List CStmt) {c : Cur}, (∀ d ∈ pdeclsL c xs, PlaceGe N d) →
    RH N c B (resolveSs xs) fun ss => (idsL ss).Perm (funIds B (procPosL xs))
  | [], c, hp => .pure (.refl _)
  | x :: xs, c, hp => by
    unfold resolveSs
    simp only [pdeclsL, List.mem_append] at hp
    exact (rh_S x fun d hd => hp d (.inl hd)).bind fun s hs => (rh_Ss xs fun d hd => hp d (.inr hd)).bind fun t ht =>
      .pure (by simpa only [idsL, procsL, List.map_append, procPosL, funIds_append] using hs.append ht)
end

end Tiny
