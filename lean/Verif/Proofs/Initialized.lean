import Verif.Proofs.Rollback
import Verif.Proofs.Session

/-!
# Every variable of a source is assigned to by it
-/

namespace Tiny
open Spec

mutual
/-- The variables assigned to by `=` and `:=`. -/
def passign (c : Cur) : CStmt → List Place
  | .node _ s => passign c s
  | .block ss => passignL c ss
  | .assign op _ (.id _ (some r)) _ => if op = .equal ∨ op = .declare then [place c r] else []
  | .proc i _ _ _ b => passign (.at i) b
  | .ifThen _ b => passign c b
  | .ifElse _ b a => passign c b ++ passign c a
  | .while _ b => passign c b
  | .for i _ s b => passign c i ++ (passign c s ++ passign c b)
  | _ => []
/-- See `passign`. -/
def passignL (c : Cur) : List CStmt → List Place
  | [] => []
  | s :: ss => passign c s ++ passignL c ss
end

/-- Places of globals are written in one way only. -/
def Normal (d : Place) : Prop := ∀ i, d.2 = .glob i → d.1 = .none

/-- The variables of the new table are old ones, or among these. -/
def Covered (f f' : Front) (ds : List Place) : Prop :=
  ∀ d, Normal d → tagOf f' d ≠ none → tagOf f d ≠ none ∨ d ∈ ds

theorem Covered.trans {f g h : Front} {ds es : List Place} (a : Covered f g ds) (b : Covered g h es) : Covered f h (ds ++ es) := by
  intro d hd hh
  rcases b d hd hh with hg | hm
  · exact (a d hd hg).imp_right fun h => List.mem_append_left _ h
  · exact .inr (List.mem_append_right _ hm)

theorem Adds.covered {f f' : Front} (a : Adds f f') : Covered f f' [] := by
  obtain ⟨k, hk⟩ := a.syms
  intro d _ h
  left
  unfold tagOf at h ⊢
  rwa [hk, tagIn_neutral] at h

theorem tagIn_push_inv {l : List Sym} {x : Sym} {d : Place} (h : tagIn (l ++ [x]) d ≠ none) :
    tagIn l d ≠ none ∨ (d.2 = .glob l.length ∧ ∃ v, x = .glob v) ∨ ∃ fi k, x = .func fi ∧ d = (.at l.length, .loc k) ∧ k < fi.locals.length := by
  obtain ⟨c, r⟩ := d
  have key : ∀ i : Nat, (l ++ [x])[i]? = l[i]? ∨ (i = l.length ∧ (l ++ [x])[i]? = some x) := by
    intro i
    by_cases hi : i < l.length
    · exact .inl (List.getElem?_append_left hi)
    · by_cases he : i = l.length
      · subst he; exact .inr ⟨rfl, by simp⟩
      · left
        rw [List.getElem?_eq_none (by simp; omega), List.getElem?_eq_none (by omega)]
  cases r with
  | glob i =>
    simp only [tagIn] at h ⊢
    rcases key i with e | ⟨rfl, e⟩
    · rw [e] at h; exact .inl h
    · rw [e] at h
      cases x <;> simp only [ne_eq, not_true_eq_false] at h
      exact .inr (.inl ⟨rfl, _, rfl⟩)
  | loc k =>
    cases c with
    | «at» j =>
      simp only [tagIn] at h ⊢
      rcases key j with e | ⟨rfl, e⟩
      · rw [e] at h; exact .inl h
      · rw [e] at h
        cases x <;> simp only [ne_eq, not_true_eq_false] at h
        rename_i fi
        refine .inr (.inr ⟨fi, k, rfl, rfl, ?_⟩)
        refine Nat.lt_of_not_le fun hk => h ?_
        rw [List.getElem?_eq_none hk]; rfl
    | none => exact absurd rfl h
    | dangling => exact absurd rfl h
  | arg k => cases c <;> exact absurd rfl h

theorem covered_const {n : Name} {l : Lit Nat} {f f' : Front} {r} (h : declareConst n l.const.1 l.const.2 f = .ok r f') :
    Covered f f' [] := by
  unfold declareConst at h
  obtain ⟨o, f1, h1, h⟩ := Act.ok_inv h
  rw [referenceVariable_state h1] at h
  cases o with
  | some _ => cases h
  | none =>
    cases h
    intro d _ hd
    unfold tagOf at hd ⊢
    simp only [List.map_append, List.map_cons, List.map_nil, Sym.core] at hd
    rcases tagIn_push_inv hd with h | ⟨-, v, h⟩ | ⟨fi, k, h, -⟩
    · exact .inl h
    · cases h
    · cases h

theorem Declares.covered {f f' : Front} {t : Option Tag} {x : SymRef} (h : Declares f f' t (some x)) :
    Covered f f' [place f.currFunc x] := by
  intro d hn hd
  unfold tagOf at hd ⊢
  cases h with
  | @glob k h1 h2 h3 h4 h5 h6 =>
    rw [h6, tagIn_neutral] at hd
    rcases tagIn_push_inv hd with h | ⟨h, v, -⟩ | ⟨fi, k, h, -⟩
    · exact .inl h
    · right
      rw [List.length_map] at h
      obtain ⟨c, r⟩ := d
      simp only at h
      subst h
      have := hn _ rfl
      simp only at this
      subst this
      simp [place]
    · cases h
  | @loc k j fi h1 h2 h3 h4 h5 h6 h7 =>
    have hlt := (List.getElem?_eq_some_iff.1 h6).1
    rw [h7, tagIn_neutral] at hd
    obtain ⟨c, r⟩ := d
    cases r with
    | glob i =>
      left
      simp only [tagIn] at hd ⊢
      by_cases e : j = i
      · subst e; rw [List.getElem?_set_self hlt] at hd; exact absurd rfl hd
      · rwa [List.getElem?_set_ne e] at hd
    | loc i =>
      cases c with
      | «at» j' =>
        simp only [tagIn] at hd ⊢
        by_cases e : j = j'
        · subst e
          rw [List.getElem?_set_self hlt] at hd
          rw [h6]
          simp only at hd ⊢
          by_cases hi : i < fi.locals.length
          · left
            rw [List.getElem?_eq_getElem hi]
            simp
          · by_cases he : i = fi.locals.length
            · subst he; right; simp [place, h2]
            · exfalso
              apply hd
              rw [List.getElem?_eq_none (by simp; omega)]; rfl
        · rw [List.getElem?_set_ne e] at hd; exact .inl hd
      | none => exact absurd rfl hd
      | dangling => exact absurd rfl hd
    | arg i => cases c <;> exact absurd rfl hd

theorem Header.covered {f g : Front} {fi : FuncInfo} (a : Header f g fi) (hl : fi.locals = []) : Covered f g [] := by
  obtain ⟨k, hk⟩ := a.syms
  rw [← List.singleton_append, ← List.append_assoc] at hk
  intro d _ hd
  unfold tagOf at hd ⊢
  rw [hk, tagIn_neutral] at hd
  rcases tagIn_push_inv hd with h | ⟨-, v, h⟩ | ⟨fi', k, h, -, h'⟩
  · exact .inl h
  · cases h
  · cases h; rw [hl] at h'; simp at h'

mutual
/-- Declarations with a type are written with `=` (the grammar says so). -/
def TypedEqual : SStmt → Prop
  | .node _ s => TypedEqual s
  | .block ss => TypedEquals ss
  | .assign op ann _ _ => ann.isSome = true → op = .equal
  | .proc _ _ _ _ b => TypedEqual b
  | .ifThen _ b => TypedEqual b
  | .ifElse _ b a => TypedEqual b ∧ TypedEqual a
  | .while _ b => TypedEqual b
  | .for i _ s b => TypedEqual i ∧ TypedEqual s ∧ TypedEqual b
  | _ => True
/-- See `TypedEqual`. -/
def TypedEquals : List SStmt → Prop
  | [] => True
  | s :: ss => TypedEqual s ∧ TypedEquals ss
end

mutual
theorem typedEqual_stmt : ∀ {s : SStmt} {us : List Tk} {nx : Tk}, StmtIs s us nx → TypedEqual s
  | _, _, _, .block _ h _ => by simpa [TypedEqual] using typedEqual_stmts h
  | _, _, _, .func _ _ _ _ _ h => by simpa [TypedEqual] using typedEqual_stmt h
  | _, _, _, .ifThen _ _ _ h _ => by simpa [TypedEqual] using typedEqual_stmt h
  | _, _, _, .ifElse _ _ _ h _ k => by simpa [TypedEqual] using ⟨typedEqual_stmt h, typedEqual_stmt k⟩
  | _, _, _, .while _ _ _ h => by simpa [TypedEqual] using typedEqual_stmt h
  | _, _, _, .for _ h _ _ _ k l => by simpa [TypedEqual] using ⟨typedEqual_stmt h, typedEqual_stmt k, typedEqual_stmt l⟩
  | _, _, _, .retNone _ _ => by simp [TypedEqual]
  | _, _, _, .ret _ _ _ => by simp [TypedEqual]
  | _, _, _, .brk _ => by simp [TypedEqual]
  | _, _, _, .cont _ => by simp [TypedEqual]
  | _, _, _, .use _ _ _ _ _ => by simp [TypedEqual]
  | _, _, _, .call _ _ => by simp [TypedEqual]
  | _, _, _, .declare _ _ _ _ => by simp [TypedEqual]
  | _, _, _, .typed _ _ _ _ _ _ => by simp [TypedEqual]
  | _, _, _, .assign _ _ _ _ _ _ _ _ _ => by simp [TypedEqual]
theorem typedEqual_stmts : ∀ {ss : List SStmt} {us : List Tk} {nx : Tk}, StmtsAre ss us nx → TypedEquals ss
  | _, _, _, .nil => trivial
  | _, _, _, .cons h k => ⟨typedEqual_stmt h, typedEqual_stmts k⟩
end

theorem typedEqual_prog : ∀ {ss : List SStmt} {us : List Tk} {nx : Tk}, ProgIs ss us nx → TypedEquals ss
  | _, _, _, .nil _ => trivial
  | _, _, _, .stmt h k => ⟨typedEqual_stmt h, typedEqual_prog k⟩
  | _, _, _, .struct _ _ _ _ _ k => ⟨by simp [TypedEqual], typedEqual_prog k⟩

theorem covered_decl {op : Tok} {ann : Option SType} {n : Name} {e : SExpr} {f f' : Front} {x : CStmt}
    (hp : op = .equal ∨ op = .declare) (h : nameDecl frontOps op ann n e f = .ok x f') :
    Covered f f' (passign f.currFunc x) ∧ f'.currFunc = f.currFunc := by
  unfold nameDecl at h
  obtain ⟨_, f1, h1, h⟩ := Act.ok_inv h
  obtain ⟨v, f2, h2, h⟩ := Act.ok_inv h
  rw [referenceVariable_state h1] at h2
  replace h2 := declareVar_inv h2
  cases ann with
  | none =>
    obtain ⟨y, f3, h3, h⟩ := Act.ok_inv h
    cases h
    obtain ⟨r, rfl, -, -, -, -, d5, -⟩ := h2.step
    have := h2.covered.trans (adds_expr e h3).covered
    exact ⟨by simpa [passign, hp] using this, (adds_expr e h3).cur.trans d5⟩
  | some ty =>
    obtain ⟨t, f3, h3, h⟩ := Act.ok_inv h
    obtain ⟨u, f4, h4, h⟩ := Act.ok_inv h
    obtain ⟨y, f5, h5, h⟩ := Act.ok_inv h
    cases h
    have hd := setVarTag_inv (h2.adds (adds_type h3)) h4
    obtain ⟨r, rfl, -, -, -, -, d5, -⟩ := hd.step
    have := hd.covered.trans (adds_expr e h5).covered
    exact ⟨by simpa [passign, hp] using this, (adds_expr e h5).cur.trans d5⟩

theorem Covered.more {f f' : Front} {ds es : List Place} (h : Covered f f' ds) (hs : ∀ d ∈ ds, d ∈ es) : Covered f f' es :=
  fun d hn hd => (h d hn hd).imp_right (hs d)

theorem covered_assign {op : Tok} {l e : SExpr} {f f' : Front} {x : CStmt} (h : nameAssign frontOps op l e f = .ok x f') (ds : List Place) :
    Covered f f' ds ∧ f'.currFunc = f.currFunc := by
  unfold nameAssign at h
  obtain ⟨l', f1, h1, h⟩ := Act.ok_inv h
  obtain ⟨e', f2, h2, h⟩ := Act.ok_inv h
  have a := (adds_expr l h1).trans (adds_expr e h2)
  generalize e'.lit = q at h
  split at h
  · obtain ⟨_, f3, h3, h⟩ := Act.ok_inv h
    cases h
    exact ⟨(a.covered.trans (covered_const h3)).more (by simp), (step_const h3).cur.trans a.cur⟩
  · cases h
    exact ⟨a.covered.more (by simp), a.cur⟩

mutual
/-- What reading a statement adds to the variables. -/
theorem covered_stmt : ∀ (s : SStmt) {f f' : Front} {x : CStmt}, TypedEqual s → nameStmt frontOps s f = .ok x f' →
    Covered f f' (passign f.currFunc x) ∧ f'.currFunc = f.currFunc
  | .node line s, f, f', x, hp, h => by
    unfold nameStmt at h
    obtain ⟨y, f1, h1, h⟩ := Act.ok_inv h
    cases h
    simpa [passign] using covered_stmt s (by simpa [TypedEqual] using hp) h1
  | .call g args, f, f', x, hp, h => by
    unfold nameStmt at h
    obtain ⟨y, f1, h1, h⟩ := Act.ok_inv h
    cases h
    exact ⟨by simpa [passign] using (adds_exprs args h1).covered, (adds_exprs args h1).cur⟩
  | .block ss, f, f', x, hp, h => by
    unfold nameStmt at h
    obtain ⟨_, f1, h1, h⟩ := Act.ok_inv h
    obtain ⟨y, f2, h2, h⟩ := Act.ok_inv h
    obtain ⟨_, f3, h3, h⟩ := Act.ok_inv h
    cases h
    have a := adds_open h1
    obtain ⟨b, c⟩ := covered_stmts ss (by simpa [TypedEqual] using hp) h2
    have := (a.covered.trans b).trans (adds_close h3).covered
    rw [a.cur, List.nil_append, List.append_nil] at this
    exact ⟨by simpa [passign] using this, (adds_close h3).cur.trans (c.trans a.cur)⟩
  | .assign op (some ty) (.id n _) r, f, f', x, hp, h => by
    unfold nameStmt at h
    simp only [TypedEqual] at hp
    exact covered_decl (.inl (hp rfl)) h
  | .assign .declare none (.id n _) r, f, f', x, hp, h => by
    unfold nameStmt at h
    exact covered_decl (.inr rfl) h
  | .proc _ n ps r b, f, f', x, hp, h => by
    unfold nameStmt at h
    replace h := Act.ok_inv h
    obtain ⟨_, f0, h0, h⟩ := h
    replace h0 := requireFalse h0
    obtain ⟨h00, hcur⟩ := h0
    subst h00
    replace h := Act.ok_inv h
    obtain ⟨i, f1, h1, h⟩ := h
    obtain ⟨ps', f2, h2, h⟩ := Act.ok_inv h
    obtain ⟨_, f3, h3, h⟩ := Act.ok_inv h
    obtain ⟨r', f4, h4, h⟩ := Act.ok_inv h
    obtain ⟨_, f5, h5, h⟩ := Act.ok_inv h
    obtain ⟨_, f6, h6, h⟩ := Act.ok_inv h
    obtain ⟨b', f7, h7, h⟩ := Act.ok_inv h
    obtain ⟨_, f8, h8, h⟩ := Act.ok_inv h
    obtain ⟨_, f9, h9, h⟩ := Act.ok_inv h
    cases h
    cases h9
    have hh : i = f0.syms.length ∧ Header f0 f1 { name := [], index := f0.numFunctions } := by
      cases h1
      exact ⟨rfl, rfl, rfl, rfl, rfl, 0, by simp [Sym.core]⟩
    obtain ⟨rfl, hh⟩ := hh
    have hh := ((((hh.adds (adds_params ps h2)).params h3).adds (adds_ret h4)).ret h5).adds (adds_open h6)
    obtain ⟨c, d⟩ := covered_stmt b (by simpa [TypedEqual] using hp) h7
    have c := ((hh.covered rfl).trans c).trans (adds_close h8).covered
    rw [List.nil_append, List.append_nil, hh.cur] at c
    refine ⟨?_, hcur.symm⟩
    intro d hn hd
    simp only [passign]
    exact c d hn hd
  | .ifThen c b, f, f', x, hp, h => by
    unfold nameStmt at h
    obtain ⟨c', f1, h1, h⟩ := Act.ok_inv h
    obtain ⟨b', f2, h2, h⟩ := Act.ok_inv h
    cases h
    have a := adds_expr c h1
    obtain ⟨k, d⟩ := covered_stmt b (by simpa [TypedEqual] using hp) h2
    rw [a.cur] at k
    exact ⟨by simpa [passign] using a.covered.trans k, d.trans a.cur⟩
  | .ifElse c b e, f, f', x, hp, h => by
    unfold nameStmt at h
    obtain ⟨c', f1, h1, h⟩ := Act.ok_inv h
    obtain ⟨b', f2, h2, h⟩ := Act.ok_inv h
    obtain ⟨e', f3, h3, h⟩ := Act.ok_inv h
    cases h
    simp only [TypedEqual] at hp
    have a := adds_expr c h1
    obtain ⟨k, d⟩ := covered_stmt b hp.1 h2
    obtain ⟨l, m⟩ := covered_stmt e hp.2 h3
    rw [d, a.cur] at l
    rw [a.cur] at k
    exact ⟨by simpa [passign] using (a.covered.trans k).trans l, m.trans (d.trans a.cur)⟩
  | .while c b, f, f', x, hp, h => by
    unfold nameStmt at h
    obtain ⟨c', f1, h1, h⟩ := Act.ok_inv h
    obtain ⟨_, f2, h2, h⟩ := Act.ok_inv h
    obtain ⟨b', f3, h3, h⟩ := Act.ok_inv h
    obtain ⟨_, f4, h4, h⟩ := Act.ok_inv h
    cases h
    have a := (adds_expr c h1).trans (adds_open h2)
    obtain ⟨k, d⟩ := covered_stmt b (by simpa [TypedEqual] using hp) h3
    rw [a.cur] at k
    have := (a.covered.trans k).trans (adds_close h4).covered
    rw [List.nil_append, List.append_nil] at this
    exact ⟨by simpa [passign] using this, (adds_close h4).cur.trans (d.trans a.cur)⟩
  | .for i c s b, f, f', x, hp, h => by
    unfold nameStmt at h
    obtain ⟨_, f1, h1, h⟩ := Act.ok_inv h
    obtain ⟨i', f2, h2, h⟩ := Act.ok_inv h
    obtain ⟨c', f3, h3, h⟩ := Act.ok_inv h
    obtain ⟨s', f4, h4, h⟩ := Act.ok_inv h
    obtain ⟨b', f5, h5, h⟩ := Act.ok_inv h
    obtain ⟨_, f6, h6, h⟩ := Act.ok_inv h
    cases h
    simp only [TypedEqual] at hp
    have a := adds_open h1
    obtain ⟨k, d⟩ := covered_stmt i hp.1 h2
    have e := adds_expr c h3
    obtain ⟨l, m⟩ := covered_stmt s hp.2.1 h4
    obtain ⟨n, o⟩ := covered_stmt b hp.2.2 h5
    rw [m, e.cur, d, a.cur] at n
    rw [e.cur, d, a.cur] at l
    rw [a.cur] at k
    have := ((((a.covered.trans k).trans e.covered).trans l).trans n).trans (adds_close h6).covered
    simp only [List.nil_append, List.append_nil, List.append_assoc] at this
    exact ⟨by simpa [passign] using this, (adds_close h6).cur.trans (o.trans (m.trans (e.cur.trans (d.trans a.cur))))⟩
  | .ret none, f, f', x, hp, h => by
    unfold nameStmt at h
    obtain ⟨_, f1, h1, h⟩ := Act.ok_inv h
    cases h
    rw [(adds_require h1).1]
    exact ⟨by simpa [passign] using (Adds.refl f).covered, rfl⟩
  | .ret (some e), f, f', x, hp, h => by
    unfold nameStmt at h
    obtain ⟨_, f1, h1, h⟩ := Act.ok_inv h
    obtain ⟨_, f2, h2, h⟩ := Act.ok_inv h
    obtain ⟨_, f3, h3, h⟩ := Act.ok_inv h
    cases h
    have e1 := (adds_require h1).1
    have e2 := adds_value h2
    subst e1; subst e2
    exact ⟨by simpa [passign] using (adds_expr e h3).covered, (adds_expr e h3).cur⟩
  | .brk, f, f', x, hp, h => by
    cases h; exact ⟨by simpa [passign] using (Adds.refl f).covered, rfl⟩
  | .cont, f, f', x, hp, h => by
    cases h; exact ⟨by simpa [passign] using (Adds.refl f).covered, rfl⟩
  | .use m as a, f, f', x, hp, h => by
    unfold nameStmt at h
    obtain ⟨_, f1, h1, h⟩ := Act.ok_inv h
    cases h
    rw [adds_top h1]
    exact ⟨by simpa [passign] using (Adds.refl f).covered, rfl⟩
  | .struct n fs, f, f', x, hp, h => by
    unfold nameStmt at h
    obtain ⟨_, f1, h1, h⟩ := Act.ok_inv h
    obtain ⟨_, f2, h2, h⟩ := Act.ok_inv h
    obtain ⟨_, f3, h3, h⟩ := Act.ok_inv h
    obtain ⟨_, f4, h4, h⟩ := Act.ok_inv h
    cases h
    have e1 := (adds_require h1).1
    subst e1
    have a := ((adds_beginStruct h2).trans (adds_fields n fs h3)).trans (adds_endStruct h4)
    exact ⟨by simpa [passign] using a.covered, a.cur⟩
  | .assign op ann l r, f, f', x, hp, h => by
    by_cases h1 : ∃ n u, l = .id n u ∧ (ann.isSome = true ∨ op = .declare)
    · obtain ⟨n, u, rfl, h1⟩ := h1
      cases ann with
      | some ty =>
        unfold nameStmt at h
        simp only [TypedEqual] at hp
        exact covered_decl (.inl (hp rfl)) h
      | none =>
        rcases h1 with h1 | rfl
        · cases h1
        · unfold nameStmt at h
          exact covered_decl (.inr rfl) h
    · have e : nameStmt frontOps (.assign op ann l r) = nameAssign frontOps op l r := by
        rw [nameStmt]
        · rintro ty n u rfl rfl; exact h1 ⟨n, u, rfl, .inl rfl⟩
        · rintro n u rfl rfl rfl; exact h1 ⟨n, u, rfl, .inr rfl⟩
      rw [e] at h
      exact covered_assign h _
theorem covered_stmts : ∀ (ss : List SStmt) {f f' : Front} {xs : List CStmt}, TypedEquals ss → nameStmts frontOps ss f = .ok xs f' →
    Covered f f' (passignL f.currFunc xs) ∧ f'.currFunc = f.currFunc
  | [], f, f', x, hp, h => by
    cases h; exact ⟨by simpa [passignL] using (Adds.refl f).covered, rfl⟩
  | s :: ss, f, f', x, hp, h => by
    unfold nameStmts at h
    obtain ⟨y, f1, h1, h⟩ := Act.ok_inv h
    obtain ⟨ys, f2, h2, h⟩ := Act.ok_inv h
    cases h
    obtain ⟨a, b⟩ := covered_stmt s hp.1 h1
    obtain ⟨c, d⟩ := covered_stmts ss hp.2 h2
    rw [b] at c
    exact ⟨by simpa [passignL] using a.trans c, d.trans b⟩
end

/-! ## The resolved tree -/

/-- The variable at a place. -/
inductive Named (l : List Sym) : Place → Option Nat × VarSym → Prop
  | glob {i v} : l[i]? = some (.glob v) → Named l (.none, .glob i) (none, .glob v.idx.toNat)
  | loc {j k fi v} : l[j]? = some (.func fi) → fi.locals[k]? = some v → Named l (.at j, .loc k) (some fi.index, .loc v.idx)

/-- What is assigned to in the parsed tree is assigned to in the resolved one. -/
theorem passign_assigned {f : Front} {s : CStmt} {s' : Stmt} (hr : ResolvedS f s s') :
    ∀ d ∈ passign f.currFunc s, ∀ p, Named f.syms d p → p ∈ assigned (curFn f) s' := by
  induction hr with
  | node _ ih => simpa only [passign, assigned] using ih
  | call _ => simp [passign]
  | nil => simp [passign, passignL]
  | cons _ _ ih1 ih2 =>
    intro d hd p hp
    simp only [passign, passignL, List.mem_append, assigned, assignedL] at hd ih1 ih2 ⊢
    exact hd.imp (fun h => ih1 d h p hp) (fun h => ih2 d h p hp)
  | @assign f op ann l l' r r' hop hl _ =>
    intro d hd p hp
    cases hl with
    | @id n r s t hs =>
      simp only [passign] at hd
      split at hd
      · rename_i ho
        rw [List.mem_singleton] at hd
        subst hd
        have ho' : op = .equal ∨ op = .declare ∨ (compoundOp op).isSome := ho.elim .inl fun h => .inr (.inl h)
        simp only [assigned, if_pos ho', List.mem_singleton]
        cases r with
        | glob i =>
          simp only [place] at hp
          cases hp with
          | @glob _ v hv =>
            simp only [symInfo, hv, Chk.ok.injEq, Prod.mk.injEq] at hs
            rw [← hs.1]
        | loc k =>
          cases hc : f.currFunc with
          | none => rw [hc] at hp; cases hp
          | dangling => rw [hc] at hp; cases hp
          | «at» j =>
            rw [hc] at hp
            cases hp with
            | @loc _ _ fi v hj hv =>
              simp only [symInfo, hc, hj, hv, Chk.ok.injEq, Prod.mk.injEq] at hs
              rw [← hs.1]
              simp [curFn, hc, hj]
        | arg k => cases hc : f.currFunc <;> (rw [hc] at hp; cases hp)
      · simp at hd
    | _ => simp [passign] at hd
  | @other f op ann l r r' hop _ =>
    intro d hd p hp
    have e : ¬ (op = .equal ∨ op = .declare) := fun h => hop (h.elim (fun h => .inr (.inl h)) .inl)
    unfold passign at hd
    split at hd <;> simp_all
  | @proc f decl n ps r b b' fi hf _ ih =>
    intro d hd p hp
    simp only [passign] at hd
    have e : curFn { f with currFunc := .at decl } = some fi.index := by simp [curFn, hf]
    rw [e] at ih
    simp only [assigned]
    exact ih d hd p hp
  | ifThen _ _ ih => simpa only [passign, assigned] using ih
  | ifElse _ _ _ ih1 ih2 =>
    intro d hd p hp
    simp only [passign, List.mem_append, assigned] at hd ⊢
    exact hd.imp (fun h => ih1 d h p hp) (fun h => ih2 d h p hp)
  | «while» _ _ ih => simpa only [passign, assigned] using ih
  | «for» _ _ _ _ ih1 ih2 ih3 =>
    intro d hd p hp
    simp only [passign, List.mem_append, assigned] at hd ⊢
    exact hd.imp (fun h => ih1 d h p hp) (Or.imp (fun h => ih2 d h p hp) (fun h => ih3 d h p hp))
  | _ => simp [passign]

end Tiny
