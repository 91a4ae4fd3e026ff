import Verif.Spec.TypeTables
import Verif.Props.Symbols

/-!
# The type checker follows the rules: expressions
-/

namespace Tiny
open Spec

@[simp] theorem Chk.pure_eq {α : Type} (a : α) : (pure a : Chk α) = .ok a := rfl
@[simp] theorem Chk.bind_ok {α β : Type} {x : Chk α} {f : α → Chk β} {b : β} :
    (x >>= f) = .ok b ↔ ∃ a, x = .ok a ∧ f a = .ok b := by
  cases x <;> simp [Bind.bind]
@[simp] theorem Chk.ok_bind {α β : Type} (a : α) (f : α → Chk β) : (Chk.ok a >>= f) = f a := rfl

/-- What the tables have in common at any time after reading a source. -/
structure Spec.Tables (f : Front) : Prop where
  slots : Slots f
  consts : ∀ n t c, Sym.const n t c ∈ f.syms → t = constTag c
  args : ∀ fi, Sym.func fi ∈ f.syms → ∀ v ∈ fi.args, v.tag.isSome = true
  rets : ∀ fi, Sym.func fi ∈ f.syms → fi.ret.isSome = true

/-! ## Variables -/

theorem find_idx {vs : List VarInfo} {k : Nat} {v : VarInfo} (h : vs[k]? = some v)
    (hu : ∀ (j : Nat) u, vs[j]? = some u → u.idx = v.idx → j = k) : vs.find? (·.idx = v.idx) = some v := by
  rw [List.find?_eq_some_iff_getElem]
  obtain ⟨hk, rfl⟩ := List.getElem?_eq_some_iff.1 h
  refine ⟨by simp, k, hk, rfl, fun j hj => ?_⟩
  have : j < vs.length := by omega
  have := hu j _ (List.getElem?_eq_getElem this)
  simp only [Bool.not_eq_eq_eq_not, Bool.not_true, decide_eq_false_iff_not]
  intro e
  have := this e
  omega

theorem typeAt_get {vs : List VarInfo} {k : Nat} {v : VarInfo} (h : vs[k]? = some v)
    (hu : ∀ (j : Nat) u, vs[j]? = some u → u.idx = v.idx → j = k) : typeAt v.idx vs = v.tag := by
  rw [typeAt, find_idx h hu]; rfl

theorem pairwise_inj {α : Type} {g : α → Int} {l : List α} (h : (l.map g).Pairwise (· < ·)) {i j : Nat} {a b : α}
    (hi : l[i]? = some a) (hj : l[j]? = some b) (e : g a = g b) : i = j := by
  obtain ⟨h1, rfl⟩ := List.getElem?_eq_some_iff.1 hi
  obtain ⟨h2, rfl⟩ := List.getElem?_eq_some_iff.1 hj
  rw [List.pairwise_iff_getElem] at h
  rcases Nat.lt_trichotomy i j with hlt | rfl | hlt
  · have := h i j (by simpa) (by simpa) hlt
    simp only [List.getElem_map] at this
    omega
  · rfl
  · have := h j i (by simpa) (by simpa) hlt
    simp only [List.getElem_map] at this
    omega

theorem globIdx_eq (l : List Sym) : l.filterMap Sym.globIdx = (l.filterMap globVar).map VarInfo.idx := by
  induction l with
  | nil => rfl
  | cons x xs ih => cases x <;> simp_all [Sym.globIdx, globVar, List.filterMap_cons]

theorem typeAt_glob {f : Front} (h : Slots f) {v : VarInfo} (hv : Sym.glob v ∈ f.syms) :
    typeAt v.idx (f.syms.filterMap globVar) = v.tag := by
  have hm : v ∈ f.syms.filterMap globVar := List.mem_filterMap.2 ⟨_, hv, rfl⟩
  obtain ⟨k, hk⟩ := List.mem_iff_getElem?.1 hm
  refine typeAt_get hk fun j u hj e => ?_
  have := h.globs
  rw [globIdx_eq] at this
  exact pairwise_inj this hj hk e

theorem glob_nonneg {f : Front} (h : Slots f) {v : VarInfo} (hv : Sym.glob v ∈ f.syms) : (v.idx.toNat : Int) = v.idx := by
  have : v.idx ∈ f.syms.filterMap Sym.globIdx := List.mem_filterMap.2 ⟨_, hv, rfl⟩
  have := (h.globBound _ this).1
  omega

theorem funcVars_loc {f : Front} (h : Slots f) {fi : FuncInfo} (hf : Sym.func fi ∈ f.syms) {k : Nat} {v : VarInfo}
    (hv : fi.locals[k]? = some v) : funcVars fi v.idx = v.tag := by
  have e := h.locals fi hf k v hv
  refine typeAt_get (k := fi.args.length + k) (by rw [List.getElem?_append_right (by omega)]; simpa using hv) fun j u hj eq => ?_
  by_cases hlt : j < fi.args.length
  · rw [List.getElem?_append_left hlt] at hj
    have := h.args fi hf j u hj
    omega
  · rw [List.getElem?_append_right (by omega)] at hj
    have := h.locals fi hf _ u hj
    omega

theorem funcVars_arg {f : Front} (h : Slots f) {fi : FuncInfo} (hf : Sym.func fi ∈ f.syms) {k : Nat} {v : VarInfo}
    (hv : fi.args[k]? = some v) : funcVars fi v.idx = v.tag := by
  have e := h.args fi hf k v hv
  have hk := (List.getElem?_eq_some_iff.1 hv).1
  refine typeAt_get (k := k) (by rw [List.getElem?_append_left hk]; exact hv) fun j u hj eq => ?_
  by_cases hlt : j < fi.args.length
  · rw [List.getElem?_append_left hlt] at hj
    have := h.args fi hf j u hj
    omega
  · rw [List.getElem?_append_right (by omega)] at hj
    have := h.locals fi hf _ u hj
    omega

/-- The type the checker finds for a variable is the one of its storage. -/
theorem symInfo_type {f : Front} (h : Tables f) {r : SymRef} {s : VarSym} {t : Option Tag} (hr : symInfo f r = .ok (s, t)) :
    (tyEnv f).var s = t := by
  unfold symInfo at hr
  cases r with
  | glob i =>
    simp only at hr
    cases hi : f.syms[i]? with
    | none => rw [hi] at hr; cases hr
    | some x =>
      rw [hi] at hr
      have hm := List.mem_of_getElem? hi
      cases x <;> cases hr
      · next v =>
        show typeAt _ _ = _
        rw [glob_nonneg h.slots hm]
        exact typeAt_glob h.slots hm
      · rw [h.consts _ _ _ hm]; rfl
  | loc k =>
    simp only at hr
    cases hc : f.currFunc with
    | none => rw [hc] at hr; cases hr
    | dangling => rw [hc] at hr; cases hr
    | «at» i =>
      rw [hc] at hr
      simp only at hr
      cases hi : f.syms[i]? with
      | none => rw [hi] at hr; cases hr
      | some x =>
        rw [hi] at hr
        cases x with
        | func fi =>
          simp only at hr
          cases hl : fi.locals[k]? with
          | none => rw [hl] at hr; cases hr
          | some v =>
            rw [hl] at hr
            cases hr
            show currentVars f v.idx = _
            simp only [currentVars, hc, hi]
            exact funcVars_loc h.slots (List.mem_of_getElem? hi) hl
        | _ => cases hr
  | arg k =>
    simp only at hr
    cases hc : f.currFunc with
    | none => rw [hc] at hr; cases hr
    | dangling => rw [hc] at hr; cases hr
    | «at» i =>
      rw [hc] at hr
      simp only at hr
      cases hi : f.syms[i]? with
      | none => rw [hi] at hr; cases hr
      | some x =>
        rw [hi] at hr
        cases x with
        | func fi =>
          simp only at hr
          cases hl : fi.args[k]? with
          | none => rw [hl] at hr; cases hr
          | some v =>
            rw [hl] at hr
            cases hr
            show currentVars f v.idx = _
            simp only [currentVars, hc, hi]
            exact funcVars_arg h.slots (List.mem_of_getElem? hi) hl
        | _ => cases hr

/-! ## Operators -/

theorem isNum_iff {t : Tag} : t.isNum = true ↔ IsNum t := by
  constructor
  · intro h; cases t <;> first | exact .int | exact .float | cases h
  · rintro ⟨⟩ <;> rfl

theorem binTag_iff {op : Tok} {l r t : Tag} : binTag op l r = .ok t ↔ BinTy op l r t := by
  constructor
  · intro h
    unfold binTag at h
    split at h
    all_goals
      first
      | cases h; done
      | skip
    all_goals
      split at h
      · cases h
      next hn =>
      cases h
      simp only [Bool.not_eq_true', Bool.not_eq_false, Bool.and_eq_true, isNum_iff, decide_eq_true_eq, Bool.or_eq_true,
        bne_iff_ne, ne_eq, not_or, Decidable.not_not] at hn
      try obtain ⟨rfl, rfl⟩ := hn
      first
        | exact .bits (by simp)
        | exact .logic (by simp)
        | exact .order (by simp) hn.1 hn.2
        | exact .equality (by simp) (by simpa using hn.1) (by simpa using hn.2)
        | skip
      try
        split
        · next he => obtain ⟨rfl, rfl⟩ := he; exact .ints (by simp)
        · next he => exact .floats (by simp) hn.1 hn.2 he
  · intro h
    cases h with
    | ints h => simp only [List.mem_cons, List.not_mem_nil, or_false] at h; rcases h with rfl | rfl | rfl | rfl <;> rfl
    | floats h h1 h2 h3 =>
      simp only [List.mem_cons, List.not_mem_nil, or_false] at h
      rw [← isNum_iff] at h1 h2
      rcases h with rfl | rfl | rfl | rfl <;> simp [binTag, h1, h2, h3]
    | bits h => simp only [List.mem_cons, List.not_mem_nil, or_false] at h; rcases h with rfl | rfl | rfl | rfl | rfl <;> rfl
    | logic h => simp only [List.mem_cons, List.not_mem_nil, or_false] at h; rcases h with rfl | rfl <;> rfl
    | order h h1 h2 =>
      simp only [List.mem_cons, List.not_mem_nil, or_false] at h
      rw [← isNum_iff] at h1 h2
      rcases h with rfl | rfl | rfl | rfl <;> simp [binTag, h1, h2]
    | equality h h1 h2 =>
      simp only [List.mem_cons, List.not_mem_nil, or_false] at h
      rcases h with rfl | rfl <;> simp [binTag, h1, h2]

theorem unTag_iff {op : Tok} {te t : Tag} : unTag op te = .ok t ↔ UnTy op te t := by
  constructor
  · intro h
    unfold unTag at h
    split at h
    · split at h
      · cases h
      · next hn => cases h; simp only [Bool.not_eq_true', Bool.not_eq_false, isNum_iff] at hn; exact .neg hn
    · split at h
      · cases h
      · next hn => cases h; simp at hn; subst hn; exact .not
    · cases h
  · rintro (h | _)
    · rw [← isNum_iff] at h; simp [unTag, h]
    · rfl

theorem fieldTag_iff {f : Front} {n field : Name} {t : Tag} :
    fieldTag f n field = .ok t ↔ ∃ fs, (tyEnv f).fields n = some fs ∧ fieldType fs field = some t := by
  constructor
  · intro h
    unfold fieldTag at h
    split at h
    · next fs hf =>
      split at h
      · next hx =>
        cases h
        exact ⟨fs, by simp only [tyEnv, hf], by simp [fieldType, hx]⟩
      · cases h
    · cases h
    · cases h
  · rintro ⟨fs, h1, h2⟩
    simp only [tyEnv] at h1
    split at h1
    · next hf =>
      cases h1
      unfold fieldType at h2
      cases hx : fs.find? (·.1 = field) with
      | none => rw [hx] at h2; cases h2
      | some p =>
        rw [hx] at h2
        cases h2
        simp only [fieldTag, hf, hx]
    · cases h1

theorem dotTag_iff {f : Front} {tl : Tag} {field : Name} {t : Tag} :
    dotTag f tl field = .ok t ↔ ∃ n fs, tl = (tyEnv f).structTag n ∧ (tyEnv f).fields n = some fs ∧ fieldType fs field = some t := by
  have hT : ∀ n, (tyEnv f).structTag n = if f.hidden n then .shadowed n else .named n := fun n => rfl
  constructor
  · intro h
    unfold dotTag at h
    split at h
    · next n =>
      split at h
      · cases h
      · next hh =>
        obtain ⟨fs, h1, h2⟩ := fieldTag_iff.1 h
        exact ⟨n, fs, by rw [hT, if_neg hh], h1, h2⟩
    · next n =>
      split at h
      · next hh =>
        obtain ⟨fs, h1, h2⟩ := fieldTag_iff.1 h
        exact ⟨n, fs, by rw [hT, if_pos hh], h1, h2⟩
      · cases h
    · cases h
  · rintro ⟨n, fs, rfl, h1, h2⟩
    have := fieldTag_iff.2 ⟨fs, h1, h2⟩
    rw [hT]
    split
    · next hh => simp only [dotTag, if_pos hh, this]
    · next hh => simp only [dotTag, if_neg hh, this]

/-! ## Functions -/

theorem allSome_some {α : Type} : ∀ {l : List (Option α)} {l' : List α}, allSome l = some l' ↔ l = l'.map some
  | [], l' => by cases l' <;> simp [allSome]
  | none :: l, l' => by cases l' <;> simp [allSome]
  | some a :: l, l' => by
    cases l' with
    | nil => simp [allSome]
    | cons b l' =>
      simp only [allSome, Option.map_eq_some_iff, allSome_some (l := l), List.map_cons, List.cons.injEq, Option.some.injEq]
      constructor
      · rintro ⟨x, rfl, rfl, rfl⟩; exact ⟨rfl, rfl⟩
      · rintro ⟨rfl, rfl⟩; exact ⟨l', rfl, rfl, rfl⟩

theorem allSome_exists {α : Type} : ∀ {l : List (Option α)}, (∀ x ∈ l, x.isSome = true) → ∃ l' : List α, l = l'.map some
  | [], _ => ⟨[], rfl⟩
  | none :: l, h => by have := h none (by simp); cases this
  | some a :: l, h => by
    obtain ⟨l', rfl⟩ := allSome_exists (l := l) fun x hx => h x (by simp [hx])
    exact ⟨a :: l', rfl⟩

theorem symSig_iff {g : Sym} {s : FnSym} {sig : Sig} :
    symSig g = some (s, sig) ↔ g.fnSym = some s ∧ g.sig = some (sig.params.map some, sig.varargs, some sig.ret) := by
  obtain ⟨ps, va, r⟩ := sig
  unfold symSig
  cases g <;> simp [Sym.fnSym, Sym.sig]
  case func fi =>
    cases hr : fi.ret with
    | none => simp
    | some r' =>
      simp only [Option.some.injEq, Option.map_eq_some_iff, allSome_some, Prod.mk.injEq, Sig.mk.injEq]
      constructor
      · rintro ⟨ps', h1, h2, rfl, h3, h4⟩; exact ⟨h2, h1, h3.symm, h4⟩
      · rintro ⟨h1, h2, h3, h4⟩; exact ⟨ps, h2, h1, rfl, h3.symm, h4⟩
  case foreign n i ts v rt =>
    simp only [allSome_some, List.map_inj_right (f := some) (fun _ _ h => Option.some.inj h)]
    constructor
    · rintro ⟨ps', rfl, h2, rfl, h3, h4⟩; exact ⟨h2, rfl, h3, h4⟩
    · rintro ⟨h1, rfl, h3, h4⟩; exact ⟨_, rfl, h1, rfl, h3, h4⟩

theorem tables_sig {f : Front} (h : Tables f) {g : Sym} (hg : g ∈ f.syms) {ps va r} (hs : g.sig = some (ps, va, r)) :
    ∃ s ps' r', ps = ps'.map some ∧ r = some r' ∧ symSig g = some (s, ⟨ps', va, r'⟩) := by
  cases g <;> simp [Sym.sig] at hs
  case func fi =>
    obtain ⟨rfl, rfl, rfl⟩ := hs
    obtain ⟨ps', e⟩ := allSome_exists (l := fi.args.map VarInfo.tag) (by
      intro x hx
      obtain ⟨v, hv, rfl⟩ := List.mem_map.1 hx
      exact h.args fi hg v hv)
    obtain ⟨r', hr⟩ := Option.isSome_iff_exists.1 (h.rets fi hg)
    refine ⟨.tiny fi.index, ps', r', e, hr, symSig_iff.2 ⟨rfl, ?_⟩⟩
    simp [Sym.sig, e, hr]
  case foreign n i ts v rt =>
    obtain ⟨rfl, rfl, rfl⟩ := hs
    exact ⟨_, ts, rt, rfl, rfl, symSig_iff.2 ⟨rfl, rfl⟩⟩

theorem referenceFunction_mem {syms : List Sym} {n : Name} {g : Sym} (h : referenceFunction syms n = some g) : g ∈ syms :=
  List.mem_of_find?_eq_some h

theorem referenceFunction_named {f : Front} {n : Name} {g : Sym} {h : FnSym} (hr : referenceFunction f.syms n = some g) (hs : g.fnSym = some h) :
    NamedFn f n h := by
  have hm := referenceFunction_mem hr
  have hn := List.find?_some hr
  cases g <;> simp only [Sym.fnSym, reduceCtorEq, Option.some.injEq] at hs
  case func fi =>
    subst hs
    exact ⟨fi, hm, by simpa [Sym.isFunc] using hn, rfl⟩
  case foreign m i ts va r =>
    subst hs
    have : m = n := by simpa [Sym.isFunc] using hn
    subst this
    exact ⟨ts, r, hm, rfl⟩

theorem indexFuncs_named {f : Front} {t : Tag} {g : FnSym} {s : Option FnSym} {t' : Tag} (h : indexFuncs f t = .ok (g, s, t')) :
    IndexFns f (some g) s := by
  unfold indexFuncs at h
  cases hr : referenceFunction f.syms (indexName t "_get_index") with
  | none => rw [hr] at h; cases h
  | some x =>
    rw [hr] at h
    simp only at h
    cases hx : x.fnSym with
    | none => rw [hx] at h; cases h
    | some gf =>
      rw [hx] at h
      split at h
      · next r e1 e2 =>
        cases e1
        cases h
        refine ⟨t, ⟨_, rfl, referenceFunction_named hr hx⟩, fun k hk => ?_⟩
        obtain ⟨y, hy, hyk⟩ := Option.bind_eq_some_iff.mp hk
        exact referenceFunction_named hy hyk
      · cases h

theorem referenceFunction_isFunc {syms : List Sym} {n : Name} {g : Sym} (h : referenceFunction syms n = some g) :
    (∃ fi, g = .func fi) ∨ ∃ m i ts va r, g = .foreign m i ts va r := by
  have := List.find?_some h
  cases g <;> first | exact .inl ⟨_, rfl⟩ | exact .inr ⟨_, _, _, _, _, rfl⟩ | cases this

theorem symSig_fst {f : Front} (h : Tables f) {n : Name} :
    ((tyEnv f).func n).map Prod.fst = (referenceFunction f.syms n).bind Sym.fnSym := by
  simp only [tyEnv]
  cases hg : referenceFunction f.syms n with
  | none => rfl
  | some g =>
    simp only [Option.bind_some]
    have : ∃ ps va r, g.sig = some (ps, va, r) := by
      rcases referenceFunction_isFunc hg with ⟨fi, rfl⟩ | ⟨m, i, ts, va, r, rfl⟩
      · exact ⟨_, _, _, rfl⟩
      · exact ⟨_, _, _, rfl⟩
    obtain ⟨ps, va, r, hs⟩ := this
    obtain ⟨s, ps', r', _, _, e⟩ := tables_sig h (referenceFunction_mem hg) hs
    rw [e, (symSig_iff.1 e).1]
    rfl

theorem indexFuncs_iff {f : Front} (h : Tables f) {ta : Tag} {g : FnSym} {s : Option FnSym} {t : Tag} :
    indexFuncs f ta = .ok (g, s, t) ↔ ∃ sig, (tyEnv f).func ((tyEnv f).getIndex ta) = some (g, sig) ∧
      s = ((tyEnv f).func ((tyEnv f).setIndex ta)).map Prod.fst ∧ t = sig.ret := by
  rw [symSig_fst h]
  show _ ↔ ∃ sig, (referenceFunction f.syms (indexName ta "_get_index")).bind symSig = some (g, sig) ∧
    s = (referenceFunction f.syms (indexName ta "_set_index")).bind Sym.fnSym ∧ t = sig.ret
  unfold indexFuncs
  cases hg : referenceFunction f.syms (indexName ta "_get_index") with
  | none => simp
  | some x =>
    simp only [Option.bind_some]
    have : ∃ ps va r, x.sig = some (ps, va, r) := by
      rcases referenceFunction_isFunc hg with ⟨fi, rfl⟩ | ⟨m, i, ts, va, r, rfl⟩
      · exact ⟨_, _, _, rfl⟩
      · exact ⟨_, _, _, rfl⟩
    obtain ⟨ps, va, r, hs⟩ := this
    obtain ⟨s', ps', r', rfl, rfl, e⟩ := tables_sig h (referenceFunction_mem hg) hs
    rw [(symSig_iff.1 e).1, hs, e]
    simp only [Chk.ok.injEq, Prod.mk.injEq, Option.some.injEq]
    constructor
    · rintro ⟨rfl, rfl, rfl⟩; exact ⟨_, ⟨rfl, rfl⟩, rfl, rfl⟩
    · rintro ⟨_, ⟨rfl, rfl⟩, rfl, rfl⟩; exact ⟨rfl, rfl, rfl⟩

/-! ## What was accepted follows the rules -/

/-- The arguments are resolved and have these types. -/
structure Args (f : Front) (as : List CExpr) (as' : List Expr) (ts : List Tag) : Prop where
  len : as.length = as'.length
  resolved : ∀ (k : Nat) a a', as[k]? = some a → as'[k]? = some a' → Resolved f a a'
  tlen : ts.length = as'.length
  typed : ∀ (k : Nat) a t, as'[k]? = some a → ts[k]? = some t → HasType (tyEnv f) a t

theorem Args.nil {f : Front} : Args f [] [] [] := ⟨rfl, by simp, rfl, by simp⟩

theorem Args.cons {f : Front} {a as a' as' t ts} (h1 : Resolved f a a') (h2 : HasType (tyEnv f) a' t)
    (h : Args f as as' ts) : Args f (a :: as) (a' :: as') (t :: ts) where
  len := by simp [h.len]
  resolved := by
    rintro (_ | k) x x' hx hx'
    · simp only [List.getElem?_cons_zero, Option.some.injEq] at hx hx'; subst hx hx'; exact h1
    · simp only [List.getElem?_cons_succ] at hx hx'; exact h.resolved k x x' hx hx'
  tlen := by simp [h.tlen]
  typed := by
    rintro (_ | k) x x' hx hx'
    · simp only [List.getElem?_cons_zero, Option.some.injEq] at hx hx'; subst hx hx'; exact h2
    · simp only [List.getElem?_cons_succ] at hx hx'; exact h.typed k x x' hx hx'

theorem checkField1_ok {fields : List (Name × Tag)} {had : Bool} {i : Nat} {names : List Name} {t : Tag} {u : Unit} :
    checkField1 fields had i names t = .ok u ↔
      i < fields.length ∧ (if had then ∃ n ns ft, names = n :: ns ∧ fieldType fields n = some ft ∧ Assignable t ft
        else ∃ f, fields[i]? = some f ∧ Assignable t f.2) := by
  unfold checkField1
  cases had with
  | true =>
    simp only [Bool.and_true, decide_eq_true_eq, if_true]
    cases names with
    | nil => simp
    | cons n ns =>
      simp only [reduceCtorEq, if_false, List.cons.injEq]
      by_cases hi : fields.length ≤ i
      · rw [if_pos hi]; simp; omega
      rw [if_neg hi]
      unfold fieldType
      cases hx : fields.find? (·.1 = n) with
      | none => simp [hx]
      | some p =>
        simp only [hx]
        by_cases ha : isTagAssignableTo t p.2 = true
        · rw [if_pos ha]
          simp only [true_iff]
          exact ⟨by omega, n, ns, p.2, ⟨rfl, rfl⟩, by simp [hx], (c36_assignable _ _).1 ha⟩
        · rw [if_neg ha]
          simp only [reduceCtorEq, false_iff, not_and, not_exists]
          rintro _ n' ns' ft ⟨rfl, rfl⟩ h
          rw [hx] at h
          cases h
          rwa [← c36_assignable]
  | false =>
    simp only [Bool.and_false, Bool.false_eq_true, if_false]
    by_cases hi : fields.length ≤ i
    · rw [if_pos hi]; simp; omega
    rw [if_neg hi]
    have hi : i < fields.length := by omega
    rw [List.getElem?_eq_getElem hi]
    simp only
    by_cases ha : isTagAssignableTo t fields[i].2 = true
    · rw [if_pos ha]; simp only [true_iff]; exact ⟨hi, _, rfl, (c36_assignable _ _).1 ha⟩
    · rw [if_neg ha]
      simp only [reduceCtorEq, false_iff, not_and, not_exists]
      rintro _ f h
      cases h
      rwa [← c36_assignable]

/-- The arguments fit the argument types of a function. -/
def ArgsFit (va : Bool) (ps : List Tag) (ts : List Tag) : Prop :=
  (va = true ∨ ts.length ≤ ps.length) ∧ ∀ (k : Nat) t p, ts[k]? = some t → ps[k]? = some p → Assignable t p

/-- The arguments fit the fields of a struct, from the `i`-th on. -/
def FieldsFit (fields : List (Name × Tag)) (had : Bool) (i : Nat) (names : List Name) (ts : List Tag) : Prop :=
  ∀ (k : Nat) t, ts[k]? = some t → i + k < fields.length ∧
    (if had then ∃ n ft, names[k]? = some n ∧ fieldType fields n = some ft ∧ Assignable t ft
      else ∃ f, fields[i + k]? = some f ∧ Assignable t f.2)

mutual
theorem resolveE_has {f : Front} (h : Tables f) : ∀ (e : CExpr) {e' : Expr} {t : Tag}, resolveE f e = .ok (e', t) →
    Resolved f e e' ∧ HasType (tyEnv f) e' t
  | .null, e', t, hr => by rw [resolveE] at hr; cases hr; exact ⟨.null, .null⟩
  | .bool b, e', t, hr => by rw [resolveE] at hr; cases hr; exact ⟨.bool, .bool⟩
  | .int i, e', t, hr => by rw [resolveE] at hr; cases hr; exact ⟨.int, .int⟩
  | .char i, e', t, hr => by rw [resolveE] at hr; cases hr; exact ⟨.char, .char⟩
  | .float i, e', t, hr => by rw [resolveE] at hr; cases hr; exact ⟨.float, .float⟩
  | .str i, e', t, hr => by rw [resolveE] at hr; cases hr; exact ⟨.str, .str⟩
  | .id n sym, e', t, hr => by
    rw [resolveE] at hr
    cases sym with
    | none => cases hr
    | some r =>
      rw [resolveId] at hr
      split at hr
      · next hs => cases hr; exact ⟨.id hs, .id (symInfo_type h hs)⟩
      all_goals cases hr
  | .call callee args, e', t, hr => by
    rw [resolveE] at hr
    cases hg : referenceFunction f.syms callee with
    | none => rw [hg] at hr; cases hr
    | some g =>
      rw [hg] at hr
      simp only at hr
      cases hs : g.sig with
      | none => rw [hs] at hr; cases hr
      | some x =>
        obtain ⟨ps, va, r⟩ := x
        rw [hs] at hr
        obtain ⟨args', ha, hr2⟩ := Chk.bind_ok.1 hr
        clear hr
        obtain ⟨s, ps', r', rfl, rfl, e⟩ := tables_sig h (referenceFunction_mem hg) hs
        cases hr2
        obtain ⟨ts, h1, h2⟩ := resolveArgs_has h args ha
        have hf : (tyEnv f).func callee = some (s, ⟨ps', va, t⟩) := by
          show (referenceFunction f.syms callee).bind symSig = _
          rw [hg]; exact e
        exact ⟨.call h1.len h1.resolved ⟨s, referenceFunction_named hg (symSig_iff.1 e).1⟩, .call hf h1.tlen h1.typed (by rw [← h1.tlen]; exact h2.1) h2.2⟩
  | .paren e, e', t, hr => by
    rw [resolveE] at hr
    obtain ⟨⟨e1, t1⟩, h1, hr⟩ := Chk.bind_ok.1 hr
    cases hr
    have := resolveE_has h e h1
    exact ⟨.paren this.1, .paren this.2⟩
  | .bin op l r, e', t, hr => by
    rw [resolveE] at hr
    obtain ⟨⟨l', tl⟩, h1, hr⟩ := Chk.bind_ok.1 hr
    obtain ⟨⟨r', tr⟩, h2, hr⟩ := Chk.bind_ok.1 hr
    obtain ⟨t', h3, hr⟩ := Chk.bind_ok.1 hr
    cases hr
    have a := resolveE_has h l h1
    have b := resolveE_has h r h2
    exact ⟨.bin a.1 b.1, .bin a.2 b.2 (binTag_iff.1 h3)⟩
  | .un op e, e', t, hr => by
    rw [resolveE] at hr
    obtain ⟨⟨e1, te⟩, h1, hr⟩ := Chk.bind_ok.1 hr
    obtain ⟨t', h3, hr⟩ := Chk.bind_ok.1 hr
    cases hr
    have a := resolveE_has h e h1
    exact ⟨.un a.1, .un a.2 (unTag_iff.1 h3)⟩
  | .dot l field, e', t, hr => by
    rw [resolveE] at hr
    obtain ⟨⟨e1, te⟩, h1, hr⟩ := Chk.bind_ok.1 hr
    obtain ⟨t', h3, hr⟩ := Chk.bind_ok.1 hr
    cases hr
    have a := resolveE_has h l h1
    obtain ⟨n, fs, rfl, h4, h5⟩ := dotTag_iff.1 h3
    exact ⟨.dot a.1, .dot a.2 h4 h5⟩
  | .index arr elem, e', t, hr => by
    rw [resolveE] at hr
    obtain ⟨⟨l', tl⟩, h1, hr⟩ := Chk.bind_ok.1 hr
    obtain ⟨⟨r', tr⟩, h2, hr⟩ := Chk.bind_ok.1 hr
    obtain ⟨⟨g, s, t'⟩, h3, hr⟩ := Chk.bind_ok.1 hr
    cases hr
    have a := resolveE_has h arr h1
    have b := resolveE_has h elem h2
    obtain ⟨sig, h4, h5, rfl⟩ := (indexFuncs_iff h).1 h3
    exact ⟨.index a.1 b.1 (indexFuncs_named h3), .index a.2 b.2 h4 h5⟩
  | .ctor n names args, e', t, hr => by
    rw [resolveE] at hr
    split at hr
    · next fields hf =>
      obtain ⟨args', ha, hr⟩ := Chk.bind_ok.1 hr
      obtain ⟨ts, h1, h2⟩ := resolveFields_has h args ha
      have hfs : (tyEnv f).fields n = some fields := by simp only [tyEnv, hf]
      cases hr
      cases names with
      | nil =>
        refine ⟨.ctor h1.len h1.resolved, .ctor hfs h1.tlen h1.typed ?_ ?_⟩
        · rw [← h1.tlen]
          refine Nat.le_of_not_lt fun hk => ?_
          have := (h2 fields.length _ (List.getElem?_eq_getElem hk)).1
          omega
        · intro k t' f' hk hk'
          obtain ⟨_, f'', h3, h4⟩ := h2 k t' hk
          simp only [Nat.zero_add] at h3
          rw [hk'] at h3
          cases h3
          exact h4
      | cons m ms =>
        simp only [List.isEmpty_cons, Bool.not_false] at h2
        refine ⟨.ctorNamed (by simp) h1.len h1.resolved, .ctorNamed hfs (by simp) h1.tlen h1.typed ?_ ?_ ?_⟩
        · rw [← h1.tlen]
          refine Nat.le_of_not_lt fun hk => ?_
          have := (h2 fields.length _ (List.getElem?_eq_getElem hk)).1
          omega
        · rw [← h1.tlen]
          refine Nat.le_of_not_lt fun hk => ?_
          obtain ⟨_, n', _, h3, _⟩ := h2 (m :: ms).length _ (List.getElem?_eq_getElem hk)
          simp at h3
        · intro k t' f' hk hk'
          obtain ⟨_, n', ft, h3, h4, h5⟩ := h2 k t' hk
          rw [hk'] at h3
          cases h3
          exact ⟨ft, h4, h5⟩
    · cases hr
    · cases hr
  | .cast e tag, e', t, hr => by
    rw [resolveE] at hr
    obtain ⟨⟨e1, te⟩, h1, hr⟩ := Chk.bind_ok.1 hr
    simp only at hr
    split at hr
    · cases hr
    · next hn =>
      cases hr
      have a := resolveE_has h e h1
      refine ⟨.cast a.1, .cast a.2 ?_⟩
      simp only [Bool.and_eq_true, bne_iff_ne, ne_eq, not_and, Decidable.not_not] at hn
      by_cases h : te = .any
      · exact .inl h
      · exact .inr (hn h)
  | .ite c a b, e', t, hr => by
    rw [resolveE] at hr
    obtain ⟨⟨c', tc⟩, h1, hr⟩ := Chk.bind_ok.1 hr
    simp only at hr
    split at hr
    · cases hr
    next hc =>
    obtain ⟨⟨a', ta⟩, h2, hr⟩ := Chk.bind_ok.1 hr
    obtain ⟨⟨b', tb⟩, h3, hr⟩ := Chk.bind_ok.1 hr
    simp only at hr
    split at hr
    · cases hr
    next ht =>
    cases hr
    have q1 := resolveE_has h c h1
    have q2 := resolveE_has h a h2
    have q3 := resolveE_has h b h3
    simp only [bne_iff_ne, ne_eq, Decidable.not_not] at hc ht
    subst hc ht
    exact ⟨.ite q1.1 q2.1 q3.1, .ite q1.2 q2.2 q3.2⟩
theorem resolveArgs_has {f : Front} (h : Tables f) : ∀ (as : List CExpr) {va : Bool} {ps : List Tag} {as' : List Expr},
    resolveArgs f va (ps.map some) as = .ok as' → ∃ ts, Args f as as' ts ∧ ArgsFit va ps ts
  | [], va, ps, as', hr => by rw [resolveArgs] at hr; cases hr; exact ⟨[], .nil, by simp, by simp⟩
  | a :: as, va, ps, as', hr => by
    rw [resolveArgs] at hr
    obtain ⟨⟨a', t⟩, h1, hr⟩ := Chk.bind_ok.1 hr
    obtain ⟨ps', h2, hr⟩ := Chk.bind_ok.1 hr
    obtain ⟨as', h3, hr⟩ := Chk.bind_ok.1 hr
    cases hr
    have q := resolveE_has h a h1
    cases ps with
    | nil =>
      simp only [List.map_nil, checkArg] at h2
      split at h2
      · next hv =>
        cases h2
        obtain ⟨ts, h4, h5⟩ := resolveArgs_has h as (ps := []) h3
        exact ⟨t :: ts, .cons q.1 q.2 h4, .inl hv, by simp⟩
      · cases h2
    | cons p ps =>
      simp only [List.map_cons, checkArg] at h2
      split at h2
      · next hv =>
        cases h2
        obtain ⟨ts, h4, h5⟩ := resolveArgs_has h as h3
        refine ⟨t :: ts, .cons q.1 q.2 h4, h5.1.imp id (by simp), ?_⟩
        rintro (_ | k) x y hx hy
        · cases hx; cases hy; exact (c36_assignable _ _).1 hv
        · exact h5.2 k x y hx hy
      · cases h2
theorem resolveFields_has {f : Front} (h : Tables f) : ∀ (as : List CExpr) {fields : List (Name × Tag)} {had : Bool}
    {i : Nat} {names : List Name} {as' : List Expr}, resolveFields f fields had i names as = .ok as' →
    ∃ ts, Args f as as' ts ∧ FieldsFit fields had i names ts
  | [], _, _, _, _, as', hr => by rw [resolveFields] at hr; cases hr; exact ⟨[], .nil, by simp [FieldsFit]⟩
  | a :: as, fields, had, i, names, as', hr => by
    rw [resolveFields] at hr
    obtain ⟨⟨a', t⟩, h1, hr⟩ := Chk.bind_ok.1 hr
    obtain ⟨_, h2, hr⟩ := Chk.bind_ok.1 hr
    obtain ⟨as', h3, hr⟩ := Chk.bind_ok.1 hr
    cases hr
    have q := resolveE_has h a h1
    obtain ⟨ts, h4, h5⟩ := resolveFields_has h as h3
    refine ⟨t :: ts, .cons q.1 q.2 h4, ?_⟩
    obtain ⟨hi, h6⟩ := checkField1_ok.1 h2
    rintro (_ | k) x hx
    · cases hx
      refine ⟨hi, ?_⟩
      cases had with
      | true => obtain ⟨n, ns, ft, rfl, h8, h9⟩ := h6; exact ⟨n, ft, rfl, h8, h9⟩
      | false => exact h6
    · have q := h5 k x hx
      rw [show i + 1 + k = i + (k + 1) by omega] at q
      refine ⟨q.1, ?_⟩
      cases had with
      | true =>
        obtain ⟨n, ft, h7, h8, h9⟩ := q.2
        refine ⟨n, ft, ?_, h8, h9⟩
        rw [List.getElem?_tail] at h7
        exact h7
      | false => exact q.2
end

/-! ## What follows the rules is accepted -/

theorem resolveArgs_complete {f : Front} : ∀ {as : List CExpr} {as' : List Expr} {ts ps : List Tag} {va : Bool},
    as.length = as'.length → ts.length = as'.length →
    (∀ (k : Nat) a a' t, as[k]? = some a → as'[k]? = some a' → ts[k]? = some t → resolveE f a = .ok (a', t)) →
    ArgsFit va ps ts → resolveArgs f va (ps.map some) as = .ok as'
  | [], [], [], _, _, _, _, _, _ => by rw [resolveArgs]
  | a :: as, a' :: as', t :: ts, ps, va, h1, h2, h3, h4 => by
    rw [resolveArgs, h3 0 a a' t rfl rfl rfl, Chk.ok_bind]
    simp only
    have hrest : ∀ ps', ArgsFit va ps' ts → resolveArgs f va (ps'.map some) as = .ok as' := fun ps' hf =>
      resolveArgs_complete (by simpa using h1) (by simpa using h2) (fun k => h3 (k + 1)) hf
    cases ps with
    | nil =>
      have hv : va = true := h4.1.resolve_right (by simp)
      have : checkArg va t ([].map some) = .ok [] := by simp [checkArg, hv]
      rw [this, Chk.ok_bind]
      rw [show ([] : List (Option Tag)) = ([] : List Tag).map some from rfl, hrest [] ⟨.inl hv, by simp⟩]
      rfl
    | cons p ps =>
      have ha := (c36_assignable _ _).2 (h4.2 0 t p rfl rfl)
      have : checkArg va t ((p :: ps).map some) = .ok (ps.map some) := by simp [checkArg, ha]
      rw [this, Chk.ok_bind, hrest ps ⟨h4.1.imp id (by simp), fun k => h4.2 (k + 1)⟩]
      rfl

theorem resolveFields_complete {f : Front} {fields : List (Name × Tag)} {had : Bool} :
    ∀ {as : List CExpr} {as' : List Expr} {ts : List Tag} {i : Nat} {names : List Name},
    as.length = as'.length → ts.length = as'.length →
    (∀ (k : Nat) a a' t, as[k]? = some a → as'[k]? = some a' → ts[k]? = some t → resolveE f a = .ok (a', t)) →
    FieldsFit fields had i names ts → resolveFields f fields had i names as = .ok as'
  | [], [], [], _, _, _, _, _, _ => by rw [resolveFields]
  | a :: as, a' :: as', t :: ts, i, names, h1, h2, h3, h4 => by
    rw [resolveFields, h3 0 a a' t rfl rfl rfl, Chk.ok_bind]
    simp only
    have hc : checkField1 fields had i names t = .ok () := by
      refine checkField1_ok.2 ⟨(h4 0 t rfl).1, ?_⟩
      have := (h4 0 t rfl).2
      cases had with
      | true =>
        obtain ⟨n, ft, hn, h5, h6⟩ := this
        cases names with
        | nil => simp at hn
        | cons m ms => cases hn; exact ⟨_, ms, ft, rfl, h5, h6⟩
      | false => exact this
    rw [hc, Chk.ok_bind, resolveFields_complete (as := as) (as' := as') (ts := ts) (by simpa using h1) (by simpa using h2)
      (fun k => h3 (k + 1)) ?_]
    · rfl
    · intro k x hx
      have q := h4 (k + 1) x hx
      rw [show i + (k + 1) = i + 1 + k by omega] at q
      refine ⟨q.1, ?_⟩
      cases had with
      | true =>
        obtain ⟨n, ft, h7, h8, h9⟩ := q.2
        refine ⟨n, ft, ?_, h8, h9⟩
        rw [List.getElem?_tail]
        exact h7
      | false => exact q.2

theorem symSig_call {f : Front} {n : Name} {s : FnSym} {sig : Sig} (h : (tyEnv f).func n = some (s, sig)) :
    ∃ g, referenceFunction f.syms n = some g ∧ g.fnSym = some s ∧
      g.sig = some (sig.params.map some, sig.varargs, some sig.ret) := by
  change (referenceFunction f.syms n).bind symSig = _ at h
  cases hg : referenceFunction f.syms n with
  | none => rw [hg] at h; cases h
  | some g => rw [hg] at h; exact ⟨g, rfl, symSig_iff.1 h⟩

theorem fields_struct {f : Front} {n : Name} {fs : List (Name × Tag)} (h : (tyEnv f).fields n = some fs) :
    f.syms.findSome? (·.structInfo n) = some (true, fs) := by
  simp only [tyEnv] at h
  split at h
  · next hf => cases h; exact hf
  · cases h

theorem resolveE_complete {f : Front} (ht : Tables f) {e' : Expr} {t : Tag} (h : HasType (tyEnv f) e' t) :
    ∀ {e : CExpr}, Resolved f e e' → resolveE f e = .ok (e', t) := by
  induction h with
  | null => rintro e ⟨⟩; rw [resolveE]
  | bool => rintro e ⟨⟩; rw [resolveE]
  | int => rintro e ⟨⟩; rw [resolveE]
  | char => rintro e ⟨⟩; rw [resolveE]
  | float => rintro e ⟨⟩; rw [resolveE]
  | str => rintro e ⟨⟩; rw [resolveE]
  | id hv =>
    rintro e ⟨⟩
    next r t' hs =>
    rw [resolveE, resolveId, hs]
    have := symInfo_type ht hs
    rw [hv] at this
    subst this
    rfl
  | paren _ ih =>
    rintro e ⟨⟩
    next e hr => rw [resolveE, ih hr]; rfl
  | bin _ _ ho ih1 ih2 =>
    rintro e ⟨⟩
    next e1 e2 hr1 hr2 => rw [resolveE, ih1 hr1, Chk.ok_bind]; simp only; rw [ih2 hr2, Chk.ok_bind]; simp only
                          rw [binTag_iff.2 ho]; rfl
  | un _ ho ih =>
    rintro e ⟨⟩
    next e hr => rw [resolveE, ih hr, Chk.ok_bind]; simp only; rw [unTag_iff.2 ho]; rfl
  | @call n s sig args ts hf hl _ hn ha ih =>
    rintro e ⟨⟩
    next as _ h1 h2 =>
    obtain ⟨g, hg, _, hs⟩ := symSig_call hf
    rw [resolveE, hg]
    simp only
    rw [hs]
    simp only
    rw [resolveArgs_complete h1 hl (fun k a a' t x y z => ih k a' t y z (h2 k a a' x y)) ⟨by rw [hl]; exact hn, ha⟩]
    rfl
  | dot _ hf hx ih =>
    rintro e ⟨⟩
    next e hr => rw [resolveE, ih hr, Chk.ok_bind]; simp only; rw [dotTag_iff.2 ⟨_, _, rfl, hf, hx⟩]; rfl
  | index _ _ hg hs ih1 ih2 =>
    rintro e ⟨⟩
    next e1 e2 hr1 hr2 _ =>
      rw [resolveE, ih1 hr1, Chk.ok_bind]; simp only; rw [ih2 hr2, Chk.ok_bind]; simp only
      rw [(indexFuncs_iff ht).2 ⟨_, hg, hs, rfl⟩]; rfl
  | @ctor n fs args ts hf hl _ hle ha ih =>
    rintro e ⟨⟩
    next as h1 h2 =>
    rw [resolveE, fields_struct hf]
    simp only
    rw [resolveFields_complete h1 hl (fun k a a' t x y z => ih k a' t y z (h2 k a a' x y))]
    · rfl
    · intro k t hk
      have : k < ts.length := (List.getElem?_eq_some_iff.1 hk).1
      have hk' : k < fs.length := by omega
      refine ⟨by omega, ?_⟩
      simp only [List.isEmpty_nil, Bool.not_true, Bool.false_eq_true, if_false, Nat.zero_add]
      exact ⟨_, List.getElem?_eq_getElem hk', ha k t _ hk (List.getElem?_eq_getElem hk')⟩
  | @ctorNamed n fs names args ts hf hne hl _ hle hle2 ha ih =>
    rintro e ⟨⟩
    next as _ h1 h2 =>
    rw [resolveE, fields_struct hf]
    simp only
    have hemp : names.isEmpty = false := by cases names <;> simp_all
    rw [resolveFields_complete h1 hl (fun k a a' t x y z => ih k a' t y z (h2 k a a' x y))]
    · rw [Chk.ok_bind, hemp]; rfl
    · intro k t hk
      have : k < ts.length := (List.getElem?_eq_some_iff.1 hk).1
      have hk' : k < names.length := by omega
      refine ⟨by omega, ?_⟩
      rw [hemp]
      simp only [Bool.not_false, if_true]
      obtain ⟨ft, h3, h4⟩ := ha k t _ hk (List.getElem?_eq_getElem hk')
      exact ⟨_, ft, List.getElem?_eq_getElem hk', h3, h4⟩
  | @cast e t tag _ hc ih =>
    rintro e ⟨⟩
    next e hr =>
      rw [resolveE, ih hr, Chk.ok_bind]
      simp only
      rw [if_neg]
      rcases hc with rfl | rfl <;> simp
  | @ite c a b t _ _ _ ih1 ih2 ih3 =>
    rintro e ⟨⟩
    next c a b h1 h2 h3 =>
      rw [resolveE, ih1 h1, Chk.ok_bind]
      simp only
      rw [if_neg (by simp), ih2 h2, Chk.ok_bind]
      simp only
      rw [ih3 h3, Chk.ok_bind]
      simp

end Tiny
