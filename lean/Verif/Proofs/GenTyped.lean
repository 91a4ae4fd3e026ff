import Verif.Proofs.GenSafe
import Verif.Proofs.NameSafe

/-!
# Programs the type checker accepts do not make the code generator crash
-/

namespace Tiny
open Spec

/-! ## Literals are not changed -/

theorem int_named {e : SExpr} {f f' : Front} {i : BitVec 32} (h : nameExpr frontOps e f = .ok (.int i) f') : e = .int i := by
  cases e with
  | int j => cases h; rfl
  | null => cases h
  | bool => cases h
  | char => cases h
  | float => cases h
  | str s => obtain ⟨_, f1, h1, h⟩ := Act.ok_inv h; cases h
  | id n u => obtain ⟨_, f1, h1, h⟩ := Act.ok_inv h; cases h
  | call g as => unfold nameExpr at h; obtain ⟨_, f1, h1, h⟩ := Act.ok_inv h; cases h
  | paren e => unfold nameExpr at h; obtain ⟨_, f1, h1, h⟩ := Act.ok_inv h; cases h
  | un op e => unfold nameExpr at h; obtain ⟨_, f1, h1, h⟩ := Act.ok_inv h; cases h
  | dot e fd => unfold nameExpr at h; obtain ⟨_, f1, h1, h⟩ := Act.ok_inv h; cases h
  | bin op l r => unfold nameExpr at h; obtain ⟨_, f1, h1, h⟩ := Act.ok_inv h; obtain ⟨_, f2, h2, h⟩ := Act.ok_inv h; cases h
  | index l r => unfold nameExpr at h; obtain ⟨_, f1, h1, h⟩ := Act.ok_inv h; obtain ⟨_, f2, h2, h⟩ := Act.ok_inv h; cases h
  | ctor n ns as => unfold nameExpr at h; obtain ⟨_, f1, h1, h⟩ := Act.ok_inv h; obtain ⟨_, f2, h2, h⟩ := Act.ok_inv h; cases h
  | cast e t => unfold nameExpr at h; obtain ⟨_, f1, h1, h⟩ := Act.ok_inv h; obtain ⟨_, f2, h2, h⟩ := Act.ok_inv h; cases h
  | ite c a b =>
    unfold nameExpr at h
    obtain ⟨_, f1, h1, h⟩ := Act.ok_inv h
    obtain ⟨_, f2, h2, h⟩ := Act.ok_inv h
    obtain ⟨_, f3, h3, h⟩ := Act.ok_inv h
    cases h

mutual
theorem neg_expr : ∀ (e : SExpr) {f f' : Front} {x : CExpr}, nameExpr frontOps e f = .ok x f' → NegMin x → NegMin e
  | .null, f, f', x, h, hn => by cases h; exact absurd hn (by simp [NegMin])
  | .bool _, f, f', x, h, hn => by cases h; exact absurd hn (by simp [NegMin])
  | .int _, f, f', x, h, hn => by cases h; exact absurd hn (by simp [NegMin])
  | .char _, f, f', x, h, hn => by cases h; exact absurd hn (by simp [NegMin])
  | .float _, f, f', x, h, hn => by cases h; exact absurd hn (by simp [NegMin])
  | .str _, f, f', x, h, hn => by
    unfold nameExpr at h
    obtain ⟨i, f1, h1, h⟩ := Act.ok_inv h
    cases h; exact absurd hn (by simp [NegMin])
  | .id n u, f, f', x, h, hn => by
    unfold nameExpr at h
    obtain ⟨v, f1, h1, h⟩ := Act.ok_inv h
    cases h; exact absurd hn (by simp [NegMin])
  | .call g as, f, f', x, h, hn => by
    unfold nameExpr at h
    obtain ⟨xs, f1, h1, h⟩ := Act.ok_inv h
    cases h
    simp only [NegMin] at hn ⊢
    exact neg_exprs as h1 hn
  | .paren e, f, f', x, h, hn => by
    unfold nameExpr at h
    obtain ⟨xs, f1, h1, h⟩ := Act.ok_inv h
    cases h
    simp only [NegMin] at hn ⊢
    exact neg_expr e h1 hn
  | .bin op l r, f, f', x, h, hn => by
    unfold nameExpr at h
    obtain ⟨l', f1, h1, h⟩ := Act.ok_inv h
    obtain ⟨r', f2, h2, h⟩ := Act.ok_inv h
    cases h
    simp only [NegMin] at hn ⊢
    exact hn.imp (neg_expr l h1) (neg_expr r h2)
  | .un op e, f, f', x, h, hn => by
    unfold nameExpr at h
    obtain ⟨xs, f1, h1, h⟩ := Act.ok_inv h
    cases h
    simp only [NegMin] at hn ⊢
    refine hn.imp (fun ⟨a, b⟩ => ⟨a, ?_⟩) (neg_expr e h1)
    subst b
    exact int_named h1
  | .dot e _, f, f', x, h, hn => by
    unfold nameExpr at h
    obtain ⟨xs, f1, h1, h⟩ := Act.ok_inv h
    cases h
    simp only [NegMin] at hn ⊢
    exact neg_expr e h1 hn
  | .index l r, f, f', x, h, hn => by
    unfold nameExpr at h
    obtain ⟨l', f1, h1, h⟩ := Act.ok_inv h
    obtain ⟨r', f2, h2, h⟩ := Act.ok_inv h
    cases h
    simp only [NegMin] at hn ⊢
    exact hn.imp (neg_expr l h1) (neg_expr r h2)
  | .ctor n names as, f, f', x, h, hn => by
    unfold nameExpr at h
    obtain ⟨_, f1, h1, h⟩ := Act.ok_inv h
    obtain ⟨xs, f2, h2, h⟩ := Act.ok_inv h
    cases h
    simp only [NegMin] at hn ⊢
    exact neg_exprs as h2 hn
  | .cast e ty, f, f', x, h, hn => by
    unfold nameExpr at h
    obtain ⟨x', f1, h1, h⟩ := Act.ok_inv h
    obtain ⟨t, f2, h2, h⟩ := Act.ok_inv h
    cases h
    simp only [NegMin] at hn ⊢
    exact neg_expr e h1 hn
  | .ite d a b, f, f', x, h, hn => by
    unfold nameExpr at h
    obtain ⟨l', f1, h1, h⟩ := Act.ok_inv h
    obtain ⟨r', f2, h2, h⟩ := Act.ok_inv h
    obtain ⟨s', f3, h3, h⟩ := Act.ok_inv h
    cases h
    simp only [NegMin] at hn ⊢
    exact hn.imp (neg_expr d h1) (Or.imp (neg_expr a h2) (neg_expr b h3))
theorem neg_exprs : ∀ (es : List SExpr) {f f' : Front} {x : List CExpr}, nameExprs frontOps es f = .ok x f' → NegMins x → NegMins es
  | [], f, f', x, h, hn => by cases h; exact absurd hn (by simp [NegMins])
  | e :: es, f, f', x, h, hn => by
    unfold nameExprs at h
    obtain ⟨l', f1, h1, h⟩ := Act.ok_inv h
    obtain ⟨r', f2, h2, h⟩ := Act.ok_inv h
    cases h
    simp only [NegMins] at hn ⊢
    exact hn.imp (neg_expr e h1) (neg_exprs es h2)
end

theorem neg_decl {op : Tok} {ann : Option SType} {n : Name} {u : Unit} {e : SExpr} {f f' : Front} {x : CStmt}
    (h : nameDecl frontOps op ann n e f = .ok x f') (hn : NegatesMin x) (a : Option SType) : NegatesMin (.assign op a (.id n u) e : SStmt) := by
  unfold nameDecl at h
  obtain ⟨_, f1, h1, h⟩ := Act.ok_inv h
  obtain ⟨v, f2, h2, h⟩ := Act.ok_inv h
  cases ann with
  | none =>
    obtain ⟨y, f3, h3, h⟩ := Act.ok_inv h
    cases h
    simp only [NegatesMin, NegMin, false_or] at hn ⊢
    exact neg_expr e h3 hn
  | some ty =>
    obtain ⟨t, f3, h3, h⟩ := Act.ok_inv h
    obtain ⟨_, f4, h4, h⟩ := Act.ok_inv h
    obtain ⟨y, f5, h5, h⟩ := Act.ok_inv h
    cases h
    simp only [NegatesMin, NegMin, false_or] at hn ⊢
    exact neg_expr e h5 hn

theorem neg_assign {op : Tok} {l e : SExpr} {f f' : Front} {x : CStmt} (h : nameAssign frontOps op l e f = .ok x f') (hn : NegatesMin x)
    (a : Option SType) : NegatesMin (.assign op a l e : SStmt) := by
  unfold nameAssign at h
  obtain ⟨l', f1, h1, h⟩ := Act.ok_inv h
  obtain ⟨e', f2, h2, h⟩ := Act.ok_inv h
  have key : NegMin l' ∨ NegMin e' → NegatesMin (.assign op a l e : SStmt) := fun hh => by
    simp only [NegatesMin]
    exact hh.imp (neg_expr l h1) (neg_expr e h2)
  generalize e'.lit = q at h
  split at h
  · obtain ⟨_, f3, h3, h⟩ := Act.ok_inv h
    cases h
    exact key (by simpa [NegatesMin] using hn)
  · cases h
    exact key (by simpa [NegatesMin] using hn)

mutual
theorem neg_stmt : ∀ (s : SStmt) {f f' : Front} {x : CStmt}, nameStmt frontOps s f = .ok x f' → NegatesMin x → NegatesMin s
  | .node line s, f, f', x, h, hn => by
    unfold nameStmt at h
    obtain ⟨y, f1, h1, h⟩ := Act.ok_inv h
    cases h
    simp only [NegatesMin] at hn ⊢
    exact neg_stmt s h1 hn
  | .call g args, f, f', x, h, hn => by
    unfold nameStmt at h
    obtain ⟨y, f1, h1, h⟩ := Act.ok_inv h
    cases h
    simp only [NegatesMin] at hn ⊢
    exact neg_exprs args h1 hn
  | .block ss, f, f', x, h, hn => by
    unfold nameStmt at h
    obtain ⟨_, f1, h1, h⟩ := Act.ok_inv h
    obtain ⟨y, f2, h2, h⟩ := Act.ok_inv h
    obtain ⟨_, f3, h3, h⟩ := Act.ok_inv h
    cases h
    simp only [NegatesMin] at hn ⊢
    exact neg_stmts ss h2 hn
  | .assign op (some ty) (.id n _) r, f, f', x, h, hn => by
    unfold nameStmt at h
    exact neg_decl h hn _
  | .assign .declare none (.id n _) r, f, f', x, h, hn => by
    unfold nameStmt at h
    exact neg_decl h hn _
  | .proc _ n ps r b, f, f', x, h, hn => by
    unfold nameStmt at h
    obtain ⟨_, f0, h0, h⟩ := Act.ok_inv h
    obtain ⟨i, f1, h1, h⟩ := Act.ok_inv h
    obtain ⟨ps', f2, h2, h⟩ := Act.ok_inv h
    obtain ⟨_, f3, h3, h⟩ := Act.ok_inv h
    obtain ⟨r', f4, h4, h⟩ := Act.ok_inv h
    obtain ⟨_, f5, h5, h⟩ := Act.ok_inv h
    obtain ⟨_, f6, h6, h⟩ := Act.ok_inv h
    obtain ⟨b', f7, h7, h⟩ := Act.ok_inv h
    obtain ⟨_, f8, h8, h⟩ := Act.ok_inv h
    obtain ⟨_, f9, h9, h⟩ := Act.ok_inv h
    cases h
    simp only [NegatesMin] at hn ⊢
    exact neg_stmt b h7 hn
  | .ifThen c b, f, f', x, h, hn => by
    unfold nameStmt at h
    obtain ⟨c', f1, h1, h⟩ := Act.ok_inv h
    obtain ⟨b', f2, h2, h⟩ := Act.ok_inv h
    cases h
    simp only [NegatesMin] at hn ⊢
    exact hn.imp (neg_expr c h1) (neg_stmt b h2)
  | .ifElse c b e, f, f', x, h, hn => by
    unfold nameStmt at h
    obtain ⟨c', f1, h1, h⟩ := Act.ok_inv h
    obtain ⟨b', f2, h2, h⟩ := Act.ok_inv h
    obtain ⟨e', f3, h3, h⟩ := Act.ok_inv h
    cases h
    simp only [NegatesMin] at hn ⊢
    exact hn.imp (neg_expr c h1) (Or.imp (neg_stmt b h2) (neg_stmt e h3))
  | .while c b, f, f', x, h, hn => by
    unfold nameStmt at h
    obtain ⟨c', f1, h1, h⟩ := Act.ok_inv h
    obtain ⟨_, f2, h2, h⟩ := Act.ok_inv h
    obtain ⟨b', f3, h3, h⟩ := Act.ok_inv h
    obtain ⟨_, f4, h4, h⟩ := Act.ok_inv h
    cases h
    simp only [NegatesMin] at hn ⊢
    exact hn.imp (neg_expr c h1) (neg_stmt b h3)
  | .for i c s b, f, f', x, h, hn => by
    unfold nameStmt at h
    obtain ⟨_, f1, h1, h⟩ := Act.ok_inv h
    obtain ⟨i', f2, h2, h⟩ := Act.ok_inv h
    obtain ⟨c', f3, h3, h⟩ := Act.ok_inv h
    obtain ⟨s', f4, h4, h⟩ := Act.ok_inv h
    obtain ⟨b', f5, h5, h⟩ := Act.ok_inv h
    obtain ⟨_, f6, h6, h⟩ := Act.ok_inv h
    cases h
    simp only [NegatesMin] at hn ⊢
    exact hn.imp (neg_stmt i h2) (Or.imp (neg_expr c h3) (Or.imp (neg_stmt s h4) (neg_stmt b h5)))
  | .ret none, f, f', x, h, hn => by
    unfold nameStmt at h
    obtain ⟨_, f1, h1, h⟩ := Act.ok_inv h
    cases h
    exact absurd hn (by simp [NegatesMin])
  | .ret (some e), f, f', x, h, hn => by
    unfold nameStmt at h
    obtain ⟨_, f1, h1, h⟩ := Act.ok_inv h
    obtain ⟨_, f2, h2, h⟩ := Act.ok_inv h
    obtain ⟨_, f3, h3, h⟩ := Act.ok_inv h
    cases h
    simp only [NegatesMin] at hn ⊢
    exact neg_expr e h3 hn
  | .brk, f, f', x, h, hn => by cases h; exact absurd hn (by simp [NegatesMin])
  | .cont, f, f', x, h, hn => by cases h; exact absurd hn (by simp [NegatesMin])
  | .use m as a, f, f', x, h, hn => by
    unfold nameStmt at h
    obtain ⟨_, f1, h1, h⟩ := Act.ok_inv h
    cases h
    exact absurd hn (by simp [NegatesMin])
  | .struct n fs, f, f', x, h, hn => by
    unfold nameStmt at h
    obtain ⟨_, f1, h1, h⟩ := Act.ok_inv h
    obtain ⟨_, f2, h2, h⟩ := Act.ok_inv h
    obtain ⟨_, f3, h3, h⟩ := Act.ok_inv h
    obtain ⟨_, f4, h4, h⟩ := Act.ok_inv h
    cases h
    exact absurd hn (by simp [NegatesMin])
  | .assign op ann l r, f, f', x, h, hn => by
    by_cases h1 : ∃ n u, l = .id n u ∧ (ann.isSome = true ∨ op = .declare)
    · obtain ⟨n, u, rfl, h1⟩ := h1
      cases ann with
      | some ty =>
        unfold nameStmt at h
        exact neg_decl h hn _
      | none =>
        rcases h1 with h1 | rfl
        · cases h1
        · unfold nameStmt at h
          exact neg_decl h hn _
    · have e : nameStmt frontOps (.assign op ann l r) = nameAssign frontOps op l r := by
        rw [nameStmt]
        · rintro ty n u rfl rfl; exact h1 ⟨n, u, rfl, .inl rfl⟩
        · rintro n u rfl rfl rfl; exact h1 ⟨n, u, rfl, .inr rfl⟩
      rw [e] at h
      exact neg_assign h hn _
theorem neg_stmts : ∀ (ss : List SStmt) {f f' : Front} {x : List CStmt}, nameStmts frontOps ss f = .ok x f' → NegateMin x → NegateMin ss
  | [], f, f', x, h, hn => by cases h; exact absurd hn (by simp [NegateMin])
  | s :: ss, f, f', x, h, hn => by
    unfold nameStmts at h
    obtain ⟨y, f1, h1, h⟩ := Act.ok_inv h
    obtain ⟨ys, f2, h2, h⟩ := Act.ok_inv h
    cases h
    simp only [NegateMin] at hn ⊢
    exact hn.imp (neg_stmt s h1) (neg_stmts ss h2)
end

/-! ## The code generator -/

/-- The code generator sees the structs the rules refer to, and they are not too large. -/
structure SeesFields (g : Globals) (Γ : TyEnv) : Prop where
  same : ∀ n, Γ.fields n = g.structs n
  small : ∀ n fs, g.structs n = some fs → fs.length ≤ 256

theorem structName_tag (Γ : TyEnv) (n : Name) : (Γ.structTag n).structName = some n := by
  unfold TyEnv.structTag
  split <;> rfl

theorem genEs_of {g : Globals} : ∀ {l : List Expr}, (∀ (k : Nat) a, l[k]? = some a → GenE g a) → GenEs g l
  | [], _ => trivial
  | a :: l, h => ⟨h 0 a rfl, genEs_of fun k b hb => h (k + 1) b hb⟩

theorem negMins_get {l : List CExpr} : (¬ NegMins l) → ∀ (k : Nat) a, l[k]? = some a → ¬ NegMin a := by
  induction l with
  | nil => intro _ k a h; simp at h
  | cons x l ih =>
    intro h k a ha
    simp only [NegMins, not_or] at h
    cases k with
    | zero => simp only [List.getElem?_cons_zero, Option.some.injEq] at ha; subst ha; exact h.1
    | succ k => exact ih h.2 k a (by simpa using ha)

theorem get_same {α β : Type} {as : List α} {bs : List β} (h : as.length = bs.length) {k : Nat} {b : β} (hb : bs[k]? = some b) : ∃ a, as[k]? = some a := by
  have := (List.getElem?_eq_some_iff.1 hb).1
  exact ⟨as[k], List.getElem?_eq_getElem (by omega)⟩

/-- **Expressions with a type do not make the code generator crash.** -/
theorem gen_typed {f : Front} {g : Globals} {Γ : TyEnv} (hg : SeesFields g Γ) {e : Expr} {t : Tag} (h : HasType Γ e t) :
    ∀ {x : CExpr}, Resolved f x e → ¬ NegMin x → GenE g e := by
  induction h with
  | null => intros; simp [GenE]
  | bool => intros; simp [GenE]
  | int => intros; simp [GenE]
  | char => intros; simp [GenE]
  | float => intros; simp [GenE]
  | str => intros; simp [GenE]
  | id => intros; simp [GenE]
  | paren _ ih =>
    intro x hx hn
    cases hx
    simp only [NegMin] at hn
    simp only [GenE]
    exact ih ‹_› hn
  | bin _ _ _ ih1 ih2 =>
    intro x hx hn
    cases hx
    simp only [NegMin, not_or] at hn
    simp only [GenE]
    exact ⟨ih1 ‹_› hn.1, ih2 ‹_› hn.2⟩
  | un _ _ ih =>
    intro x hx hn
    cases hx with
    | un hx =>
      simp only [NegMin, not_or] at hn
      simp only [GenE]
      refine ⟨fun ⟨a, b⟩ => hn.1 ⟨a, ?_⟩, ih hx hn.2⟩
      subst b
      cases hx
      rfl
  | call _ hl _ _ _ ih =>
    intro x hx hn
    cases hx with
    | call h1 h2 =>
      simp only [NegMin] at hn
      simp only [GenE]
      refine genEs_of fun k a ha => ?_
      obtain ⟨b, hb⟩ := get_same h1 ha
      obtain ⟨t, ht⟩ := get_same hl ha
      exact ih k a t ha ht (h2 k b a hb ha) (negMins_get hn k b hb)
  | @dot l n fs field t _ h2 h3 ih =>
    intro x hx hn
    cases hx with
    | dot hx =>
      simp only [NegMin] at hn
      simp only [GenE]
      refine ⟨⟨n, fs, by simp [structName_tag], by rw [← hg.same]; exact h2, hg.small n fs (by rw [← hg.same]; exact h2), ?_⟩, ih hx hn⟩
      unfold fieldType at h3
      rw [Option.map_eq_some_iff] at h3
      obtain ⟨p, hp, -⟩ := h3
      exact ⟨p, List.mem_of_find?_eq_some hp, by simpa using List.find?_some hp⟩
  | index _ _ _ _ ih1 ih2 =>
    intro x hx hn
    cases hx
    simp only [NegMin, not_or] at hn
    simp only [GenE]
    exact ⟨rfl, ih1 ‹_› hn.1, ih2 ‹_› hn.2⟩
  | ctor hf hl _ _ _ ih =>
    intro x hx hn
    cases hx with
    | ctor h1 h2 =>
      simp only [NegMin] at hn
      simp only [GenE]
      refine ⟨by rw [← hg.same, hf]; rfl, by simp, genEs_of fun k a ha => ?_⟩
      obtain ⟨b, hb⟩ := get_same h1 ha
      obtain ⟨t, ht⟩ := get_same hl ha
      exact ih k a t ha ht (h2 k b a hb ha) (negMins_get hn k b hb)
  | ctorNamed hf _ hl _ _ hln _ ih =>
    intro x hx hn
    cases hx with
    | ctorNamed _ h1 h2 =>
      simp only [NegMin] at hn
      simp only [GenE]
      refine ⟨by rw [← hg.same, hf]; rfl, by simpa using hln, genEs_of fun k a ha => ?_⟩
      obtain ⟨b, hb⟩ := get_same h1 ha
      obtain ⟨t, ht⟩ := get_same hl ha
      exact ih k a t ha ht (h2 k b a hb ha) (negMins_get hn k b hb)
  | cast _ _ ih =>
    intro x hx hn
    cases hx
    simp only [NegMin] at hn
    simp only [GenE]
    exact ih ‹_› hn
  | ite _ _ _ ih1 ih2 ih3 =>
    intro x hx hn
    cases hx
    simp only [NegMin, not_or] at hn
    simp only [GenE]
    exact ⟨ih1 ‹_› hn.1, ih2 ‹_› hn.2.1, ih3 ‹_› hn.2.2⟩

theorem SeesFields.enter {g : Globals} {Γ : TyEnv} (h : SeesFields g Γ) (L : Int → Option Tag) : SeesFields g (Γ.enter L) := ⟨h.same, h.small⟩

theorem checked_block {Γ : TyEnv} {r : Option Tag} {s : Stmt} {ss : List Stmt} (h : Checked Γ r (.block (s :: ss))) :
    Checked Γ r s ∧ Checked Γ r (.block ss) := by
  cases h with
  | block h => exact ⟨h s (by simp), .block fun x hx => h x (by simp [hx])⟩

/-- **Checked statements do not make the code generator crash.** -/
theorem gen_checked {g : Globals} {F : Nat} : ∀ {f : Front} {x : CStmt} {s : Stmt}, ResolvedS f x s →
    ∀ {Γ : TyEnv} {r : Option Tag}, SeesFields g Γ → (∀ i b, Γ.body i = some b → i < F) → Checked Γ r s → ¬ NegatesMin x → GenS g F s := by
  intro f x s hr
  induction hr with
  | node _ ih =>
    intro Γ r hg hF hc hn
    cases hc
    simp only [NegatesMin] at hn
    simp only [GenS]
    exact ih hg hF ‹_› hn
  | call hx =>
    intro Γ r hg hF hc hn
    cases hc with
    | call hc =>
      simp only [NegatesMin] at hn
      have := gen_typed hg hc hx (by simpa [NegMin] using hn)
      simpa [GenS, GenE] using this
  | nil => intros; simp [GenS, GenSs]
  | cons _ _ ih1 ih2 =>
    intro Γ r hg hF hc hn
    obtain ⟨h1, h2⟩ := checked_block hc
    simp only [NegatesMin, NegateMin, not_or] at hn
    have a := ih1 hg hF h1 hn.1
    have b := ih2 hg hF h2 (by simpa [NegatesMin] using hn.2)
    simp only [GenS, GenSs] at b ⊢
    exact ⟨a, b⟩
  | assign ho hl hr =>
    intro Γ r hg hF hc hn
    simp only [NegatesMin, not_or] at hn
    simp only [GenS]
    cases hc with
    | declare _ h _ => exact ⟨by simp [GenE], gen_typed hg h hr hn.2⟩
    | assign _ h1 h2 _ => exact ⟨gen_typed hg h1 hl hn.1, gen_typed hg h2 hr hn.2⟩
    | other _ _ h => exact ⟨by simp [GenE], gen_typed hg h hr hn.2⟩
  | other ho hr =>
    intro Γ r hg hF hc hn
    simp only [NegatesMin, not_or] at hn
    simp only [GenS]
    cases hc with
    | assign _ _ h2 _ => exact ⟨by simp [GenE], gen_typed hg h2 hr hn.2⟩
    | other _ _ h => exact ⟨by simp [GenE], gen_typed hg h hr hn.2⟩
  | proc _ _ ih =>
    intro Γ r hg hF hc hn
    cases hc with
    | proc h1 h2 =>
      simp only [NegatesMin] at hn
      simp only [GenS]
      exact ⟨hF _ _ h1, ih (hg.enter _) (fun i b hb => hF i b hb) h2 hn⟩
  | ifThen hx _ ih =>
    intro Γ r hg hF hc hn
    cases hc with
    | ifThen h1 h2 =>
      simp only [NegatesMin, not_or] at hn
      simp only [GenS]
      exact ⟨gen_typed hg h1 hx hn.1, ih hg hF h2 hn.2⟩
  | ifElse hx _ _ ih1 ih2 =>
    intro Γ r hg hF hc hn
    cases hc with
    | ifElse h1 h2 h3 =>
      simp only [NegatesMin, not_or] at hn
      simp only [GenS]
      exact ⟨gen_typed hg h1 hx hn.1, ih1 hg hF h2 hn.2.1, ih2 hg hF h3 hn.2.2⟩
  | «while» hx _ ih =>
    intro Γ r hg hF hc hn
    cases hc with
    | «while» h1 h2 =>
      simp only [NegatesMin, not_or] at hn
      simp only [GenS]
      exact ⟨gen_typed hg h1 hx hn.1, ih hg hF h2 hn.2⟩
  | «for» _ hx _ _ ih1 ih2 ih3 =>
    intro Γ r hg hF hc hn
    cases hc with
    | «for» h1 h2 h3 h4 =>
      simp only [NegatesMin, not_or] at hn
      simp only [GenS]
      exact ⟨ih1 hg hF h1 hn.1, gen_typed hg h2 hx hn.2.1, ih2 hg hF h3 hn.2.2.1, ih3 hg hF h4 hn.2.2.2⟩
  | retNone => intros; simp [GenS]
  | ret hx =>
    intro Γ r hg hF hc hn
    cases hc with
    | ret h1 _ =>
      simp only [NegatesMin] at hn
      simp only [GenS]
      exact gen_typed hg h1 hx hn
  | brk => intros; simp [GenS]
  | cont => intros; simp [GenS]
  | use => intros; simp [GenS]
  | struct => intros; simp [GenS, GenSs]

end Tiny
