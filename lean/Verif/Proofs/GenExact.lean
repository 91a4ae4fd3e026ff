import Verif.Proofs.PhaseSafe
import Verif.Spec.Accept

/-!
# When the code generator reports an error

On trees which follow the rules of the type system it reports an error exactly if the tree is too large.
-/

namespace Tiny
open Spec

/-- If the action succeeds then its result satisfies `Q`. -/
def OKP {α : Type} (x : CG α) (Q : α → Prop) : Prop := ∀ s a s', x s = .ok a s' → Q a

section
variable {α β : Type}

theorem OKP.bind {x : CG α} {f : α → CG β} {Q : α → Prop} {R : β → Prop} (hx : OKP x Q) (hf : ∀ a, Q a → OKP (f a) R) : OKP (x >>= f) R := by
  intro s b s' h
  obtain ⟨a, s1, h1, h2⟩ := CG.bind_ok.1 h
  exact hf a (hx _ _ _ h1) _ _ _ h2

theorem OKP.skip {x : CG α} {f : α → CG β} {R : β → Prop} (hf : ∀ a, OKP (f a) R) : OKP (x >>= f) R :=
  OKP.bind (Q := fun _ => True) (fun _ _ _ _ => trivial) fun a _ => hf a

theorem OKP.triv {x : CG α} {R : α → Prop} (h : ∀ a, R a) : OKP x R := fun _ a _ _ => h a

theorem okp_err {R : α → Prop} : OKP (reportError : CG α) R := fun _ _ _ h => absurd h CG.err_ok

theorem OKP.imp {x : CG α} {Q R : α → Prop} (hx : OKP x Q) (h : ∀ a, Q a → R a) : OKP x R := fun s a s' k => h a (hx s a s' k)

theorem okp_if {c : Prop} [Decidable c] {x y : CG α} {Q : α → Prop} (hx : c → OKP x Q) (hy : ¬ c → OKP y Q) :
    OKP (if c then x else y) Q := by
  by_cases h : c
  · rw [if_pos h]; exact hx h
  · rw [if_neg h]; exact hy h

/-- `if c then error; rest`. -/
theorem okp_check {c : Prop} [Decidable c] {f : Unit → CG α} {Q : α → Prop} (hf : ¬ c → OKP (f ()) Q) :
    OKP (if c then reportError >>= f else f ()) Q :=
  okp_if (fun _ => OKP.bind (Q := fun _ => False) okp_err fun _ h => h.elim) hf

end

theorem okp_call (n : Nat) (f : FnSym) : OKP (genCall n f) fun _ => FnSym.Takes f n := by
  cases f with
  | tiny i => exact .triv fun _ => trivial
  | «foreign» i m va =>
    refine OKP.skip fun _ => okp_check fun hc => .triv fun _ => ?_
    simp only [FnSym.Takes]
    cases va <;> simp at hc ⊢ <;> omega

theorem takes_of {f : FnSym} {n : Nat} (h : FnSym.Takes f n) : f.takes n := by
  cases f <;> exact h

section
variable {g : Globals}

theorem fitsEs_of {F : Name → Option FnSym} : ∀ {l : List Expr}, (∀ (k : Nat) a, l[k]? = some a → FitsE F a) → FitsEs F l
  | [], _ => trivial
  | a :: l, h => ⟨h 0 a rfl, fitsEs_of fun k b hb => h (k + 1) b hb⟩

theorem okp_args : ∀ (n : Nat) (es : List Expr), (∀ (k : Nat) a, es[k]? = some a → OKP (compileE g a) fun _ => FitsE g.funcs a) →
    n ≤ 255 → OKP (compileArgs g n es) fun m => m = n + es.length ∧ m ≤ 255 ∧ FitsEs g.funcs es
  | n, [], _, hn => by
    rw [compileArgs]
    intro s a s' h
    obtain ⟨rfl, -⟩ := CG.pure_ok.1 h
    exact ⟨by simp, hn, trivial⟩
  | n, e :: es, h, hn => by
    rw [compileArgs]
    refine okp_check fun hc => (h 0 e rfl).bind fun _ he => ?_
    exact (okp_args (n + 1) es (fun k a ha => h (k + 1) a ha) (by omega)).imp fun m ⟨a, b, c⟩ =>
      ⟨by rw [a, List.length_cons]; omega, b, he, c⟩

theorem okp_list : ∀ (es : List Expr), (∀ (k : Nat) a, es[k]? = some a → OKP (compileE g a) fun _ => FitsE g.funcs a) →
    OKP (compileList g es) fun _ => FitsEs g.funcs es
  | [], _ => .triv fun _ => trivial
  | e :: es, h => by
    rw [compileList]
    exact (h 0 e rfl).bind fun _ he => (okp_list es fun k a ha => h (k + 1) a ha).imp fun _ k => ⟨he, k⟩

theorem okp_named (f : Name) : ∀ (ns : List Name) (es : List Expr), (∀ (k : Nat) a, es[k]? = some a → OKP (compileE g a) fun _ => FitsE g.funcs a) →
    OKP (compileNamed g f ns es) fun _ => FitsFirst g.funcs f ns es
  | [], [], _ => .triv fun _ => by simp [FitsFirst]
  | _ :: _, [], _ => .triv fun _ => by simp [FitsFirst]
  | [], e :: es, _ => .triv fun _ => by simp [FitsFirst]
  | n :: ns, e :: es, h => by
    rw [compileNamed]
    refine okp_if (fun hn => (h 0 e rfl).imp fun _ k => ?_) fun hn => (okp_named f ns es fun k a ha => h (k + 1) a ha).imp fun _ k => ?_
    · rw [FitsFirst, if_pos hn]; exact k
    · rw [FitsFirst, if_neg hn]; exact k

theorem okp_each {x : Name → CG Unit} {P : Name → Prop} (hx : ∀ f, OKP (x f) fun _ => P f) : ∀ fs : List Name, OKP (eachField x fs) fun _ => ∀ f ∈ fs, P f
  | [] => .triv fun _ => by simp
  | f :: fs => by
    rw [eachField]
    exact (hx f).bind fun _ h => (okp_each hx fs).imp fun _ k => by simpa using ⟨h, k⟩

/-- A name which no argument has, or none before the arguments end. -/
theorem fitsFirst_end {F : Name → Option FnSym} {x : Name} : ∀ {ns : List Name} {es : List Expr}, (∀ (k : Nat), k < es.length → ns[k]? ≠ some x) → FitsFirst F x ns es
  | [], es, _ => by cases es <;> simp [FitsFirst]
  | n :: ns, [], _ => by simp [FitsFirst]
  | n :: ns, e :: es, h => by
    rw [FitsFirst, if_neg fun k => h 0 (by simp) (by simp [k])]
    exact fitsFirst_end fun k hk => by simpa using h (k + 1) (by simpa using hk)

/-- **If code is generated for an expression then it is not too large.** -/
theorem okp_typed {Γ : TyEnv} (hs : ∀ n, Γ.fields n = g.structs n) {e : Expr} {t : Tag} (h : HasType Γ e t) :
    OKP (compileE g e) fun _ => FitsE g.funcs e := by
  induction h with
  | null => exact .triv fun _ => by simp [FitsE]
  | bool => exact .triv fun _ => by simp [FitsE]
  | int => exact .triv fun _ => by simp [FitsE]
  | char => exact .triv fun _ => by simp [FitsE]
  | float => exact .triv fun _ => by simp [FitsE]
  | str => exact .triv fun _ => by simp [FitsE]
  | id => exact .triv fun _ => by simp [FitsE]
  | paren _ ih => rw [compileE]; simpa only [FitsE] using ih
  | cast _ _ ih => rw [compileE]; simpa only [FitsE] using ih
  | @bin op l r tl tr t _ _ _ ih1 ih2 =>
    simp only [FitsE]
    have one : r.isOne = true → FitsE g.funcs r := fun h => by
      unfold Expr.isOne at h
      split at h
      · simp [FitsE]
      · cases h
    rw [compileE.eq_def]
    simp only
    split
    · exact ih1.bind fun _ h1 => okp_if (fun h => .triv fun _ => ⟨h1, one h⟩) fun _ => ih2.bind fun _ h2 => .triv fun _ => ⟨h1, h2⟩
    · exact ih1.bind fun _ h1 => okp_if (fun h => .triv fun _ => ⟨h1, one h⟩) fun _ => ih2.bind fun _ h2 => .triv fun _ => ⟨h1, h2⟩
    · exact ih1.bind fun _ h1 => ih2.bind fun _ h2 => .triv fun _ => ⟨h1, h2⟩
    · exact ih1.bind fun _ h1 => .skip fun _ => ih2.bind fun _ h2 => .triv fun _ => ⟨h1, h2⟩
    · exact ih1.bind fun _ h1 => .skip fun _ => .skip fun _ => .skip fun _ => .skip fun _ => .skip fun _ => ih2.bind fun _ h2 => .triv fun _ => ⟨h1, h2⟩
    · cases binOpcode op with
      | some o => exact ih1.bind fun _ h1 => ih2.bind fun _ h2 => .triv fun _ => ⟨h1, h2⟩
      | none => exact okp_err
  | @un op e te t _ hu ih =>
    simp only [FitsE]
    rw [compileE.eq_def]
    simp only
    cases hu with
    | neg _ =>
      simp only
      split
      · exact .triv fun _ => by simp [FitsE]
      · exact ih.bind fun _ h1 => .triv fun _ => h1
    | not => exact ih.bind fun _ h1 => .triv fun _ => h1
  | @call n f sig args ts _ hl _ _ _ ih =>
    rw [compileE]
    simp only [FitsE]
    refine (okp_args 0 args (fun k a ha => ?_) (by omega)).bind fun m hm => ?_
    · obtain ⟨t, ht⟩ := get_same hl ha
      exact ih k a t ha ht
    · cases hf : g.funcs n with
      | none => exact okp_err
      | some f' =>
        refine (okp_call m f').bind fun _ hc => .triv fun _ => ⟨by omega, ?_, hm.2.2⟩
        rintro f'' h
        cases h
        rw [hm.1, Nat.zero_add] at hc
        exact hc
  | dot _ _ _ ih =>
    rw [compileE]
    simp only [FitsE]
    exact .skip fun _ => ih.bind fun _ h => .triv fun _ => h
  | index _ _ _ _ ih1 ih2 =>
    rw [compileE]
    simp only [FitsE]
    exact ih1.bind fun _ h1 => ih2.bind fun _ h2 => (okp_call 2 _).bind fun _ hc => .triv fun _ => ⟨fun f' h => by cases h; exact hc, h1, h2⟩
  | @ctor n fs args ts hf hl _ _ _ ih =>
    rw [compileE.eq_def]
    simp only [FitsE, ← hs n, hf]
    refine (okp_list args fun k a ha => ?_).bind fun _ h => .triv fun _ => h
    obtain ⟨t, ht⟩ := get_same hl ha
    exact ih k a t ha ht
  | @ctorNamed n fs names args ts hf _ hl _ _ _ hnm ih =>
    rw [compileE.eq_def]
    simp only [FitsE, ← hs n, hf]
    refine OKP.bind (okp_each (fun f => okp_named f names args fun k a ha => ?_) _) fun _ h => .triv fun _ x hx => ?_
    · obtain ⟨t, ht⟩ := get_same hl ha
      exact ih k a t ha ht
    · by_cases hk : ∃ k : Nat, k < args.length ∧ names[k]? = some x
      · obtain ⟨k, hk, hkx⟩ := hk
        obtain ⟨t, ht⟩ : ∃ t, ts[k]? = some t := ⟨ts[k], List.getElem?_eq_getElem (by omega)⟩
        obtain ⟨ft, h1, -⟩ := hnm k t x ht hkx
        refine h x ?_
        unfold fieldType at h1
        rw [Option.map_eq_some_iff] at h1
        obtain ⟨p, hp, -⟩ := h1
        exact List.mem_map.2 ⟨p, List.mem_of_find?_eq_some hp, by simpa using List.find?_some hp⟩
      · exact fitsFirst_end fun k hk' h' => hk ⟨k, hk', h'⟩
  | ite _ _ _ ih1 ih2 ih3 =>
    rw [compileE]
    simp only [FitsE]
    exact ih1.bind fun _ h1 => .skip fun _ => ih2.bind fun _ h2 => .skip fun _ => .skip fun _ => .skip fun _ => ih3.bind fun _ h3 =>
      .triv fun _ => ⟨h1, h2, h3⟩

theorem okp_store {l : Expr} : OKP (compileStore g l) fun _ => Storable l := by
  cases l with
  | id n s =>
    cases s with
    | none => exact .triv fun _ => trivial
    | some s =>
      cases s with
      | const c => exact okp_err
      | glob i => exact .triv fun _ => trivial
      | loc i => exact .triv fun _ => trivial
  | index a i gt st =>
    unfold compileStore
    cases st with
    | none => exact okp_err
    | some f => exact (okp_call 3 f).imp fun _ h => ⟨f, rfl, h⟩
  | dot l f t => exact .triv fun _ => trivial
  | _ => exact fun _ _ _ h => by cases h

theorem okp_storeDot {Γ : TyEnv} (hs : ∀ n, Γ.fields n = g.structs n) {l : Expr} {f : Name} {tag : Option Tag} {t : Tag} (h : HasType Γ (.dot l f tag) t) :
    OKP (compileStore g (.dot l f tag)) fun _ => FitsE g.funcs l := by
  cases h with
  | dot h1 h2 h3 =>
    unfold compileStore
    exact .skip fun _ => (okp_typed hs h1).bind fun _ h => .triv fun _ => h

theorem okp_rhs {op : Tok} {l r : Expr} (hl : (compoundOp op).isSome = true → OKP (compileE g l) fun _ => FitsE g.funcs l)
    (hr : OKP (compileE g r) fun _ => FitsE g.funcs r) :
    OKP (compileRhs g op l r) fun _ => FitsE g.funcs r ∧ ((compoundOp op).isSome = true → FitsE g.funcs l) := by
  unfold compileRhs
  cases ho : compoundOp op with
  | none => exact hr.imp fun _ h => ⟨h, by simp⟩
  | some o =>
    refine (hl (by rw [ho]; rfl)).bind fun _ h1 => okp_if (fun h => .triv fun _ => ⟨?_, fun _ => h1⟩) fun _ => hr.bind fun _ h => .triv fun _ => ⟨h, fun _ => h1⟩
    have h := h.2
    unfold Expr.isOne at h
    split at h
    · simp [FitsE]
    · cases h

theorem okp_assign {Γ : TyEnv} (hs : ∀ n, Γ.fields n = g.structs n) {op : Tok} {l r : Expr} {tr : Tag}
    (hl : (∃ n s, l = .id n s) ∧ op = .declare ∨ (∃ t, HasType Γ l t)) (hr : HasType Γ r tr) :
    OKP (compileAssign g op l r) fun _ => Fits g.funcs (.assign op l r) := by
  unfold compileAssign
  simp only [Fits]
  refine okp_if (fun h => .triv fun _ => .inl h) fun _ => okp_if (fun h => ?_) fun _ => okp_err
  refine okp_check fun _ => ?_
  have hop : op = .equal ∨ op = .declare ∨ (compound op).isSome = true := by rwa [compound_isSome]
  have rhs : OKP (compileRhs g op l r) fun _ => FitsE g.funcs r ∧ ((compoundOp op).isSome = true → FitsE g.funcs l) := by
    refine okp_rhs (fun ho => ?_) (okp_typed hs hr)
    rcases hl with ⟨-, rfl⟩ | ⟨t, hl⟩
    · cases ho
    · exact okp_typed hs hl
  have fin : FitsE g.funcs r ∧ ((compoundOp op).isSome = true → FitsE g.funcs l) → Storable l → FitsTarget g.funcs l →
      (op = .declareConst ∨ ((op = .equal ∨ op = .declare ∨ (compound op).isSome = true) ∧ Storable l ∧ FitsTarget g.funcs l ∧ FitsE g.funcs r ∧
        ((compound op).isSome = true → FitsE g.funcs l))) := fun a b c => .inr ⟨hop, b, c, a.1, by rw [compound_isSome]; exact a.2⟩
  cases l with
  | index a i gt st =>
    rcases hl with ⟨⟨_, _, h⟩, -⟩ | ⟨t, hl⟩
    · cases h
    · cases hl with
      | index h1 h2 _ _ =>
        exact (okp_typed hs h1).bind fun _ k1 => (okp_typed hs h2).bind fun _ k2 => rhs.bind fun _ k3 => okp_store.imp fun _ k4 =>
          fin k3 k4 ⟨k1, k2⟩
  | dot l f tag =>
    rcases hl with ⟨⟨_, _, h⟩, -⟩ | ⟨t, hl⟩
    · cases h
    · exact rhs.bind fun _ k3 => (okp_storeDot hs hl).imp fun _ k4 => fin k3 (by simp [Storable]) (by simpa [FitsTarget] using k4)
  | _ => exact rhs.bind fun _ k3 => okp_store.imp fun _ k4 => fin k3 k4 (by simp [FitsTarget])

theorem okp_block : ∀ {ss : List Stmt}, (∀ s ∈ ss, OKP (compileS g s) fun _ => Fits g.funcs s) → OKP (compileSs g ss) fun _ => FitsL g.funcs ss
  | [], _ => .triv fun _ => trivial
  | s :: ss, h => by
    rw [compileSs]
    exact (h s (by simp)).bind fun _ h1 => (okp_block fun x hx => h x (by simp [hx])).bind fun _ h2 => .triv fun _ => ⟨h1, h2⟩

/-- **If code is generated for a statement then it is not too large.** -/
theorem okp_checked {Γ : TyEnv} {r : Option Tag} {s : Stmt} (h : Checked Γ r s) : (∀ n, Γ.fields n = g.structs n) → OKP (compileS g s) fun _ => Fits g.funcs s := by
  induction h with
  | node _ ih =>
    intro hs
    rw [compileS]
    simp only [Fits]
    exact .skip fun _ => (ih hs).bind fun _ h => .triv fun _ => h
  | @call Γ ret n args t h =>
    intro hs
    rw [compileS]
    unfold compileCall
    simp only [Fits]
    refine OKP.bind (Q := fun _ => FitsE g.funcs (.call _ _)) ?_ fun _ h => .triv fun _ => h
    cases h with
    | call _ hl ha _ _ =>
      simp only [FitsE]
      refine (okp_args 0 args (fun k a hk => ?_) (by omega)).bind fun m hm => ?_
      · obtain ⟨t, ht⟩ := get_same hl hk
        exact okp_typed hs (ha k a t hk ht)
      · cases hf : g.funcs n with
        | none => exact okp_err
        | some f' =>
          refine (okp_call m f').imp fun _ hc => ⟨by omega, ?_, hm.2.2⟩
          rintro f'' h
          cases h
          rw [hm.1, Nat.zero_add] at hc
          exact hc
  | block _ ih =>
    intro hs
    rw [compileS]
    simp only [Fits]
    exact (okp_block fun s hs' => ih s hs' hs).bind fun _ h => .triv fun _ => h
  | declare _ h _ =>
    intro hs
    rw [compileS]
    exact (okp_assign hs (.inl ⟨⟨_, _, rfl⟩, rfl⟩) h).bind fun _ h => .triv fun _ => h
  | assign _ h1 h2 _ =>
    intro hs
    rw [compileS]
    exact (okp_assign hs (.inr ⟨_, h1⟩) h2).bind fun _ h => .triv fun _ => h
  | other _ _ h =>
    intro hs
    rw [compileS]
    exact (okp_assign hs (.inr ⟨_, .null⟩) h).bind fun _ h => .triv fun _ => h
  | proc _ _ ih =>
    intro hs
    rw [compileS]
    simp only [Fits]
    refine .skip fun _ => .skip fun _ => .skip fun _ => okp_check fun hc => ?_
    refine okp_if (fun _ => .skip fun _ => .skip fun _ => ?_) fun _ => ?_
    · exact (ih hs).bind fun _ h => .triv fun _ => ⟨by omega, h⟩
    · exact (ih hs).bind fun _ h => .triv fun _ => ⟨by omega, h⟩
  | ifThen h1 _ ih =>
    intro hs
    rw [compileS]
    simp only [Fits]
    exact (okp_typed hs h1).bind fun _ h1 => .skip fun _ => (ih hs).bind fun _ h2 => .triv fun _ => ⟨h1, h2⟩
  | ifElse h1 _ _ ih ih' =>
    intro hs
    rw [compileS]
    simp only [Fits]
    exact (okp_typed hs h1).bind fun _ h1 => .skip fun _ => (ih hs).bind fun _ h2 => .skip fun _ => .skip fun _ => .skip fun _ => (ih' hs).bind fun _ h3 =>
      .triv fun _ => ⟨h1, h2, h3⟩
  | «while» h1 _ ih =>
    intro hs
    rw [compileS]
    simp only [Fits]
    exact .skip fun _ => (okp_typed hs h1).bind fun _ h1 => .skip fun _ => (ih hs).bind fun _ h2 => .triv fun _ => ⟨h1, h2⟩
  | «for» _ h1 _ _ ih1 ih2 ih3 =>
    intro hs
    rw [compileS]
    simp only [Fits]
    exact (ih1 hs).bind fun _ a => .skip fun _ => (okp_typed hs h1).bind fun _ h1 => .skip fun _ => (ih3 hs).bind fun _ b => .skip fun _ =>
      (ih2 hs).bind fun _ c => .triv fun _ => ⟨a, h1, c, b⟩
  | retVoid => intro _; exact .triv fun _ => by simp [Fits]
  | ret h1 _ =>
    intro hs
    rw [compileS]
    simp only [Fits]
    exact (okp_typed hs h1).bind fun _ h1 => .triv fun _ => h1
  | brk => intro _; exact .triv fun _ => by simp [Fits]
  | cont => intro _; exact .triv fun _ => by simp [Fits]
  | use => intro _; exact .triv fun _ => by simp [Fits]

/-! ## And conversely -/

theorem fitEs_of : ∀ {l : List Expr}, (∀ (k : Nat) a, l[k]? = some a → FitsE g.funcs a → FitE g a) → FitsEs g.funcs l → FitEs g l
  | [], _, _ => trivial
  | a :: l, h, ⟨k1, k2⟩ => ⟨h 0 a rfl k1, fitEs_of (fun k b hb => h (k + 1) b hb) k2⟩

theorem fitFirst_of {x : Name} : ∀ {ns : List Name} {l : List Expr}, (∀ (k : Nat) a, l[k]? = some a → FitsE g.funcs a → FitE g a) →
    FitsFirst g.funcs x ns l → FitFirst g x ns l
  | [], l, _, _ => by cases l <;> simp [FitFirst]
  | _ :: _, [], _, _ => by simp [FitFirst]
  | n :: ns, a :: l, h, k => by
    rw [FitsFirst] at k
    rw [FitFirst]
    by_cases hn : n = x
    · rw [if_pos hn] at k ⊢; exact h 0 a rfl k
    · rw [if_neg hn] at k ⊢; exact fitFirst_of (fun k b hb => h (k + 1) b hb) k

theorem binTy_binary {op : Tok} {a b c : Tag} (h : BinTy op a b c) : op.binary := by
  have key : op ∈ [Tok.plus, .minus, .star, .slash, .and, .or, .percent, .shiftLeft, .shiftRight, .logAnd, .logOr, .lt, .lte, .gt, .gte, .equals, .notEquals] →
      op.binary := by
    cases op <;> simp [Tok.binary, binOpcode]
  refine key ?_
  cases h with
  | ints h => simp only [List.mem_cons, List.not_mem_nil, or_false] at h ⊢; rcases h with rfl | rfl | rfl | rfl <;> simp
  | floats h => simp only [List.mem_cons, List.not_mem_nil, or_false] at h ⊢; rcases h with rfl | rfl | rfl | rfl <;> simp
  | bits h => simp only [List.mem_cons, List.not_mem_nil, or_false] at h ⊢; rcases h with rfl | rfl | rfl | rfl | rfl <;> simp
  | logic h => simp only [List.mem_cons, List.not_mem_nil, or_false] at h ⊢; rcases h with rfl | rfl <;> simp
  | order h => simp only [List.mem_cons, List.not_mem_nil, or_false] at h ⊢; rcases h with rfl | rfl | rfl | rfl <;> simp
  | equality h => simp only [List.mem_cons, List.not_mem_nil, or_false] at h ⊢; rcases h with rfl | rfl <;> simp

theorem fit_typed {Γ : TyEnv} (hF : ∀ n, g.funcs n = (Γ.func n).map Prod.fst) {e : Expr} {t : Tag} (h : HasType Γ e t) : FitsE g.funcs e → FitE g e := by
  induction h with
  | null => intro _; simp [FitE]
  | bool => intro _; simp [FitE]
  | int => intro _; simp [FitE]
  | char => intro _; simp [FitE]
  | float => intro _; simp [FitE]
  | str => intro _; simp [FitE]
  | id => intro _; simp [FitE]
  | paren _ ih => simpa only [FitE, FitsE] using ih
  | cast _ _ ih => simpa only [FitE, FitsE] using ih
  | bin _ _ hb ih1 ih2 =>
    simp only [FitE, FitsE]
    exact fun ⟨a, b⟩ => ⟨binTy_binary hb, ih1 a, ih2 b⟩
  | un _ hu ih =>
    simp only [FitE, FitsE]
    exact fun h => ⟨by cases hu <;> simp, ih h⟩
  | @call n f sig args ts hn hl _ _ _ ih =>
    simp only [FitE, FitsE]
    have hf : g.funcs n = some f := by rw [hF, hn]; rfl
    refine fun ⟨a, b, c⟩ => ⟨⟨f, hf, takes_of (b f hf)⟩, a, fitEs_of (fun k x hx => ?_) c⟩
    obtain ⟨t, ht⟩ := get_same hl hx
    exact ih k x t hx ht
  | dot _ _ _ ih => simpa only [FitE, FitsE] using ih
  | index _ _ _ _ ih1 ih2 =>
    simp only [FitE, FitsE]
    exact fun ⟨a, b, c⟩ => ⟨fun x hx => takes_of (a x hx), ih1 b, ih2 c⟩
  | ctor _ hl _ _ _ ih =>
    simp only [FitE, FitsE]
    refine fitEs_of fun k x hx => ?_
    obtain ⟨t, ht⟩ := get_same hl hx
    exact ih k x t hx ht
  | ctorNamed _ _ hl _ _ _ _ ih =>
    simp only [FitE, FitsE]
    refine fun h x hx => fitFirst_of (fun k x hx => ?_) (h x hx)
    obtain ⟨t, ht⟩ := get_same hl hx
    exact ih k x t hx ht
  | ite _ _ _ ih1 ih2 ih3 =>
    simp only [FitE, FitsE]
    exact fun ⟨a, b, c⟩ => ⟨ih1 a, ih2 b, ih3 c⟩

theorem fitTarget_of {Γ : TyEnv} (hF : ∀ n, g.funcs n = (Γ.func n).map Prod.fst) {e : Expr} {t : Tag} (h : HasType Γ e t) (k : FitsTarget g.funcs e) : FitTarget g e := by
  cases h with
  | index h1 h2 _ _ => exact ⟨fit_typed hF h1 k.1, fit_typed hF h2 k.2⟩
  | dot h1 _ _ => exact fit_typed hF h1 k
  | _ => simp [FitTarget]

theorem fitStore_of {Γ : TyEnv} {e : Expr} {t : Tag} (h : HasType Γ e t) (k : Storable e) : FitStore e := by
  cases h with
  | index h1 h2 _ _ =>
    obtain ⟨f, rfl, h⟩ := k
    exact takes_of h
  | @id n s t h =>
    cases s with
    | const c => exact k.elim
    | _ => trivial
  | dot => trivial
  | _ => exact k.elim

theorem fits_other {F : Name → Option FnSym} {op : Tok} {r : Expr} (h : Fits F (.assign op .null r)) : op = .declareConst := by
  simp only [Fits, Storable] at h
  rcases h with h | ⟨-, h, -⟩
  · exact h
  · exact h.elim

theorem fitSs_of : ∀ {ss : List Stmt}, (∀ s ∈ ss, Fits g.funcs s → FitS g s) → FitsL g.funcs ss → FitSs g ss
  | [], _, _ => trivial
  | s :: ss, h, ⟨k1, k2⟩ => ⟨h s (by simp) k1, fitSs_of (fun x hx => h x (by simp [hx])) k2⟩

theorem fit_checked {Γ : TyEnv} {r : Option Tag} {s : Stmt} (h : Checked Γ r s) : (∀ n, g.funcs n = (Γ.func n).map Prod.fst) → Fits g.funcs s → FitS g s := by
  induction h with
  | node _ ih => intro hF; simpa only [Fits, FitS] using ih hF
  | call h => intro hF; simp only [Fits, FitS]; exact fit_typed hF h
  | block _ ih => intro hF; simp only [Fits, FitS]; exact fitSs_of fun s hs => ih s hs hF
  | @declare Γ ret n s r t _ h _ =>
    intro hF
    simp only [Fits, FitS]
    rintro (h' | ⟨-, a, b, c, d⟩)
    · cases h'
    · refine .inr ⟨by simp, ?_, by simp [FitTarget], fit_typed hF h c, by simp [compoundOp]⟩
      cases s with
      | const c => exact a.elim
      | _ => trivial
  | assign _ h1 h2 _ =>
    intro hF
    simp only [Fits, FitS]
    rw [← compound_isSome]
    exact fun h => h.imp_right fun ⟨a, b, c, d, e⟩ => ⟨a, fitStore_of h1 b, fitTarget_of hF h1 c, fit_typed hF h2 d, fun k => fit_typed hF h1 (e k)⟩
  | other _ _ h =>
    intro hF k
    simp only [FitS]
    exact .inl (fits_other k)
  | proc _ _ ih => intro hF; simp only [Fits, FitS]; exact fun ⟨a, b⟩ => ⟨a, ih hF b⟩
  | ifThen h1 _ ih => intro hF; simp only [Fits, FitS]; exact fun ⟨a, b⟩ => ⟨fit_typed hF h1 a, ih hF b⟩
  | ifElse h1 _ _ ih ih' => intro hF; simp only [Fits, FitS]; exact fun ⟨a, b, c⟩ => ⟨fit_typed hF h1 a, ih hF b, ih' hF c⟩
  | «while» h1 _ ih => intro hF; simp only [Fits, FitS]; exact fun ⟨a, b⟩ => ⟨fit_typed hF h1 a, ih hF b⟩
  | «for» _ h1 _ _ ih1 ih2 ih3 =>
    intro hF
    simp only [Fits, FitS]
    exact fun ⟨a, b, c, d⟩ => ⟨ih1 hF a, fit_typed hF h1 b, ih2 hF c, ih3 hF d⟩
  | retVoid => intro _ _; simp [FitS]
  | ret h1 _ => intro hF; simp only [Fits, FitS]; exact fit_typed hF h1
  | brk => intro _ _; simp [FitS]
  | cont => intro _ _; simp [FitS]
  | use => intro _ _; simp [FitS]

end

end Tiny
