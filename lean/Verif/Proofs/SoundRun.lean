import Verif.Proofs.Sound

/-!
# C37: well-typed programs keep types while they run
-/

namespace Tiny.Spec

/-- After an expression of type `t`. -/
def EPost (Γ : TyEnv) (Φ : HostTypes) (I : VarSym → Prop) (S : ObjTypes) (h : Heap) (t : Tag) (r : Value × World) : Prop :=
  ∃ S', Later S h S' r.2.heap ∧ WorldTy Γ Φ S' I r.2 ∧ ValTy Φ S' r.2.heap r.1 t

/-- Values of some types. -/
def ValsTy (Φ : HostTypes) (S : ObjTypes) (h : Heap) (vs : List Value) (ts : List Tag) : Prop :=
  vs.length = ts.length ∧ ∀ (k : Nat) v t, vs[k]? = some v → ts[k]? = some t → ValTy Φ S h v t

/-- After several. -/
def LPost (Γ : TyEnv) (Φ : HostTypes) (I : VarSym → Prop) (S : ObjTypes) (h : Heap) (ts : List Tag) (r : List Value × World) : Prop :=
  ∃ S', Later S h S' r.2.heap ∧ WorldTy Γ Φ S' I r.2 ∧ ValsTy Φ S' r.2.heap r.1 ts

/-- After a statement. -/
def SPost (Γ : TyEnv) (Φ : HostTypes) (L : Int → Option Tag) (loop : Bool) (ret : Option Tag) (I I' : VarSym → Prop) (S : ObjTypes) (h : Heap)
    (r : Outcome × Vars × World) : Prop :=
  ∃ S', Later S h S' r.2.2.heap ∧ WorldTy Γ Φ S' I r.2.2 ∧ LocalsTy (Γ.enter L) Φ S' I r.2.2.heap r.2.1 ∧
    (r.1 = .normal → WorldTy Γ Φ S' I' r.2.2 ∧ LocalsTy (Γ.enter L) Φ S' I' r.2.2.heap r.2.1) ∧
    (r.1 = .brk ∨ r.1 = .cont → loop = true) ∧
    ∀ v, r.1 = .ret v → ∃ t, ret = some t ∧ ValTy Φ S' r.2.2.heap v t

theorem ValsTy.later {Φ : HostTypes} (hΦ : HostMono Φ) {S S' : ObjTypes} {h h' : Heap} (l : Later S h S' h') {vs : List Value} {ts : List Tag}
    (k : ValsTy Φ S h vs ts) : ValsTy Φ S' h' vs ts := ⟨k.1, fun i v t a b => (k.2 i v t a b).mono hΦ l⟩

theorem ValsTy.cons {Φ : HostTypes} {S : ObjTypes} {h : Heap} {v : Value} {t : Tag} {vs : List Value} {ts : List Tag}
    (k : ValTy Φ S h v t) (ks : ValsTy Φ S h vs ts) : ValsTy Φ S h (v :: vs) (t :: ts) := by
  refine ⟨by simp [ks.1], fun i => ?_⟩
  cases i with
  | zero =>
    intro a b h1 h2
    cases h1; cases h2; exact k
  | succ i => exact fun a b h1 h2 => ks.2 i a b h1 h2

theorem ValsTy.nil {Φ : HostTypes} {S : ObjTypes} {h : Heap} : ValsTy Φ S h [] [] := ⟨rfl, fun _ _ _ h => by simp at h⟩

theorem ValsTy.sane {Φ : HostTypes} {S : ObjTypes} {h : Heap} {vs : List Value} {ts : List Tag} (k : ValsTy Φ S h vs ts) :
    ∀ v ∈ vs, Sane S h v := by
  intro v hv
  obtain ⟨i, hi, rfl⟩ := List.getElem_of_mem hv
  exact (k.2 i _ (ts[i]'(by rw [← k.1]; exact hi)) (List.getElem?_eq_getElem hi) (List.getElem?_eq_getElem _)).sane

theorem Flow.mono {Γ : TyEnv} {D : Discipline} {loop : Bool} {I I' : VarSym → Prop} {s : Stmt} (h : Flow Γ D loop I s I') : ∀ x, I x → I' x := by
  induction h with
  | node _ ih => exact ih
  | cons _ _ ih1 ih2 => exact fun x h => ih2 x (ih1 x h)
  | declare => exact fun x h => .inr h
  | assign => exact fun x h => .inr h
  | ifElse _ _ _ ih1 ih2 => exact fun x h => ⟨ih1 x h, ih2 x h⟩
  | «for» _ _ _ _ ih1 _ _ => exact ih1
  | ret => exact fun _ _ => trivial
  | brk => exact fun _ _ => trivial
  | cont => exact fun _ _ => trivial
  | _ => exact fun _ h => h

/-! ## Variables -/

theorem Vars.get_set {ρ ρ' : Vars} {i : Int} {v : Value} (h : ρ.set i v = some ρ') (j : Int) :
    ρ'.get j = if j = i then some v else ρ.get j := by
  unfold Vars.set at h
  by_cases hi : 0 ≤ i
  · rw [if_pos hi] at h
    split at h
    · next hl =>
      cases h
      unfold Vars.get
      by_cases hj : 0 ≤ j
      · rw [if_pos hj, if_pos hj]
        by_cases e : j = i
        · subst e; simp [hl]
        · rw [if_neg e]
          simp only
          rw [List.getElem?_set_ne (by omega)]
      · rw [if_neg hj, if_neg hj, if_neg (c := j = i) (by omega)]
    · cases h
  · rw [if_neg hi] at h
    split at h
    · next hl =>
      cases h
      unfold Vars.get
      by_cases hj : 0 ≤ j
      · rw [if_pos hj, if_pos hj, if_neg (by omega)]
      · rw [if_neg hj, if_neg hj]
        simp only [List.length_set]
        by_cases e : j = i
        · subst e
          rw [if_pos hl, if_pos rfl, List.getElem?_set_self (by omega)]
        · rw [if_neg e]
          split
          · rw [List.getElem?_set_ne (by omega)]
          · rfl
    · cases h

theorem Vars.set_some {ρ : Vars} {i : Int} {u : Value} (h : ρ.get i = some u) (v : Value) : ∃ ρ', ρ.set i v = some ρ' := by
  unfold Vars.get at h
  unfold Vars.set
  by_cases hi : 0 ≤ i
  · rw [if_pos hi] at h ⊢
    rw [if_pos (List.getElem?_eq_some_iff.1 h).1]
    exact ⟨_, rfl⟩
  · rw [if_neg hi] at h ⊢
    split at h
    · next hl => rw [if_pos hl]; exact ⟨_, rfl⟩
    · cases h

theorem LocalsTy.set {Γ : TyEnv} {Φ : HostTypes} {S : ObjTypes} {I : VarSym → Prop} {h : Heap} {ρ : Vars} (l : LocalsTy Γ Φ S I h ρ)
    {i : Int} {t : Tag} {v : Value} (ht : Γ.var (.loc i) = some t) (hv : ValTy Φ S h v t) :
    ∃ ρ', ρ.set i v = some ρ' ∧ LocalsTy Γ Φ S (plus I (.loc i)) h ρ' := by
  obtain ⟨u, hu, -⟩ := l i t ht
  obtain ⟨ρ', hρ⟩ := Vars.set_some hu v
  refine ⟨ρ', hρ, fun j t' hj => ?_⟩
  rw [Vars.get_set hρ]
  by_cases e : j = i
  · subst e
    rw [ht] at hj
    cases hj
    exact ⟨v, if_pos rfl, fun _ => hv⟩
  · rw [if_neg e]
    obtain ⟨x, a, b⟩ := l j t' hj
    refine ⟨x, a, fun k => b ?_⟩
    rcases k with k | k
    · cases k; exact (e rfl).elim
    · exact k

theorem WorldTy.set {Γ : TyEnv} {Φ : HostTypes} {S : ObjTypes} {I : VarSym → Prop} {w : World} (l : WorldTy Γ Φ S I w)
    {i : Nat} {t : Tag} {v : Value} (ht : Γ.var (.glob i) = some t) (hv : ValTy Φ S w.heap v t) :
    i < w.globals.length ∧ WorldTy Γ Φ S (plus I (.glob i)) { w with globals := w.globals.set i v } := by
  obtain ⟨u, hu, -⟩ := l.globs i t ht
  have hi := (List.getElem?_eq_some_iff.1 hu).1
  refine ⟨hi, l.heap, fun j t' hj => ?_⟩
  by_cases e : i = j
  · subst e
    rw [ht] at hj
    cases hj
    exact ⟨v, List.getElem?_set_self hi, fun _ => hv⟩
  · obtain ⟨x, a, b⟩ := l.globs j t' hj
    refine ⟨x, by simp only; rw [List.getElem?_set_ne e]; exact a, fun k => b ?_⟩
    rcases k with k | k
    · cases k; exact (e rfl).elim
    · exact k

theorem LocalsTy.glob {Γ : TyEnv} {Φ : HostTypes} {S : ObjTypes} {I : VarSym → Prop} {h : Heap} {ρ : Vars} (l : LocalsTy Γ Φ S I h ρ) (i : Nat) :
    LocalsTy Γ Φ S (plus I (.glob i)) h ρ := fun j t' hj => by
  obtain ⟨x, a, b⟩ := l j t' hj
  exact ⟨x, a, fun k => b (by rcases k with k | k; cases k; exact k)⟩

theorem WorldTy.loc {Γ : TyEnv} {Φ : HostTypes} {S : ObjTypes} {I : VarSym → Prop} {w : World} (l : WorldTy Γ Φ S I w) (i : Int) :
    WorldTy Γ Φ S (plus I (.loc i)) w := ⟨l.heap, fun j t' hj => by
  obtain ⟨x, a, b⟩ := l.globs j t' hj
  exact ⟨x, a, fun k => b (by rcases k with k | k; cases k; exact k)⟩⟩

/-- Reading a variable. -/
theorem readVar_good {Γ : TyEnv} {Φ : HostTypes} {S : ObjTypes} {I : VarSym → Prop} {c : Ctx} {w : World} {ρ : Vars} {s : VarSym} {t : Tag}
    (hc : ∀ v t, Γ.var (.const v) = some t → t = constTag v) (hw : WorldTy Γ Φ S I w) (hl : LocalsTy Γ Φ S I w.heap ρ)
    (ht : Γ.var s = some t) (hi : (∃ v, s = .const v) ∨ I s) : Good (readVar c ρ w s) fun v => ValTy Φ S w.heap v t := by
  cases s with
  | glob i =>
    have hi : I (.glob i) := by simpa using hi
    obtain ⟨v, a, b⟩ := hw.globs i t ht
    simp only [readVar]
    split
    · rw [a]; exact .ok (b hi)
    · trivial
  | loc i =>
    have hi : I (.loc i) := by simpa using hi
    obtain ⟨v, a, b⟩ := hl i t ht
    simp only [readVar]
    rw [a]
    exact .ok (b hi)
  | const v =>
    obtain rfl := hc v t ht
    cases v with
    | bool b => exact .ok ⟨b, rfl⟩
    | int i =>
      simp only [readVar]
      split
      · exact .ok ⟨i, rfl⟩
      · trivial
    | float x => exact .ok ⟨x, rfl⟩
    | str i =>
      simp only [readVar, strConst]
      split
      · exact .ok (.inl ⟨i, rfl⟩)
      · trivial

/-! ## Functions which return -/

theorem returns_not_normal (c : Ctx) : ∀ n,
    (∀ s ρ w o ρ' w', Returns s → execS c n s ρ w = .ok (o, ρ', w') → o ≠ .normal) ∧
    (∀ ss ρ w o ρ' w', ReturnsL ss → execSs c n ss ρ w = .ok (o, ρ', w') → o ≠ .normal) := by
  intro n
  induction n with
  | zero =>
    refine ⟨fun s ρ w o ρ' w' _ h => ?_, fun s ρ w o ρ' w' _ h => ?_⟩
    · unfold execS at h; cases h
    · unfold execSs at h; cases h
  | succ n ih =>
    refine ⟨fun s ρ w o ρ' w' hr h => ?_, fun ss ρ w o ρ' w' hr h => ?_⟩
    · cases s with
      | node l s => exact ih.1 s ρ w o ρ' w' hr (by rw [execS] at h; exact h)
      | block ss => exact ih.2 ss ρ w o ρ' w' hr (by rw [execS] at h; exact h)
      | ifElse cnd b a =>
        rw [execS] at h
        cases h1 : evalE c n cnd ρ w with
        | ok r =>
          rw [h1] at h
          simp only [Res.bind_ok] at h
          cases h2 : truth r.1 with
          | ok x =>
            rw [h2] at h
            simp only [Res.bind_ok] at h
            cases x
            · exact ih.1 a _ _ o ρ' w' hr.2 h
            · exact ih.1 b _ _ o ρ' w' hr.1 h
          | _ => rw [h2] at h; cases h
        | _ => rw [h1] at h; cases h
      | ret e =>
        cases e with
        | none => rw [execS] at h; cases h; simp
        | some e =>
          rw [execS] at h
          cases h1 : evalE c n e ρ w with
          | ok r => rw [h1] at h; cases h; simp
          | _ => rw [h1] at h; cases h
      | _ => exact hr.elim
    · cases ss with
      | nil => exact hr.elim
      | cons s ss =>
        rw [execSs] at h
        cases h1 : execS c n s ρ w with
        | ok r =>
          obtain ⟨o1, ρ1, w1⟩ := r
          rw [h1] at h
          simp only [Res.bind_ok] at h
          cases o1 with
          | normal =>
            rcases hr with hr | hr
            · exact (ih.1 s ρ w _ _ _ hr h1 rfl).elim
            · exact ih.2 ss _ _ o ρ' w' hr h
          | _ => cases h; simp
        | _ => rw [h1] at h; cases h

/-! ## More variables may be initialized -/

theorem Ready.weaken {D : Discipline} {I J : VarSym → Prop} {f : FnSym} (h : Ready D I f) (k : ∀ x, I x → J x) : Ready D J f :=
  fun a g b => k _ (h a g b)

mutual
theorem CoreE.weaken {Γ : TyEnv} {D : Discipline} {I J : VarSym → Prop} (k : ∀ x, I x → J x) (e : Expr) (h : CoreE Γ D I e) : CoreE Γ D J e := by
  unfold CoreE at h ⊢
  match e with
  | .id _ (some (.const _)) => trivial
  | .id _ (some (.glob i)) => exact k _ h
  | .id _ (some (.loc i)) => exact k _ h
  | .id _ none => exact h.elim
  | .paren e => exact CoreE.weaken k e h
  | .un _ e => exact CoreE.weaken k e h
  | .bin _ l r => exact ⟨CoreE.weaken k l h.1, CoreE.weaken k r h.2⟩
  | .ite c a b => exact ⟨CoreE.weaken k c h.1, CoreE.weaken k a h.2.1, CoreE.weaken k b h.2.2⟩
  | .cast e t => exact ⟨CoreE.weaken k e h.1, h.2⟩
  | .dot l _ _ => exact CoreE.weaken k l h
  | .call n args =>
    obtain ⟨a, f, sig, b1, b2, b3⟩ := h
    exact ⟨CoreEs.weaken k args a, f, sig, b1, b2, b3.weaken k⟩
  | .index arr elem f _ =>
    obtain ⟨a, b, ta, te, g, sig, c1, c2, c3, c4, c5, c6⟩ := h
    exact ⟨CoreE.weaken k arr a, CoreE.weaken k elem b, ta, te, g, sig, c1, c2, c3, c4, c5, c6.weaken k⟩
  | .ctor n none args => exact ⟨CoreEs.weaken k args h.1, h.2⟩
  | .ctor n (some names) args => exact ⟨CoreEs.weaken k args h.1, h.2⟩
  | .null => trivial
  | .bool _ => trivial
  | .int _ => trivial
  | .char _ => trivial
  | .float _ => trivial
  | .str _ => trivial
theorem CoreEs.weaken {Γ : TyEnv} {D : Discipline} {I J : VarSym → Prop} (k : ∀ x, I x → J x) (es : List Expr) (h : CoreEs Γ D I es) :
    CoreEs Γ D J es := by
  match es with
  | [] => trivial
  | e :: es => exact ⟨CoreE.weaken k e h.1, CoreEs.weaken k es h.2⟩
end

theorem Flow.weaken {Γ : TyEnv} {D : Discipline} {loop : Bool} {I I' : VarSym → Prop} {s : Stmt} (h : Flow Γ D loop I s I') :
    ∀ {J : VarSym → Prop}, (∀ x, I x → J x) → ∃ J' : VarSym → Prop, (∀ x, I' x → J' x) ∧ Flow Γ D loop J s J' := by
  induction h with
  | node _ ih =>
    intro J k
    obtain ⟨J', a, b⟩ := ih k
    exact ⟨J', a, .node b⟩
  | call h => exact fun k => ⟨_, k, .call (h.weaken k)⟩
  | nil => exact fun k => ⟨_, k, .nil⟩
  | cons _ _ ih1 ih2 =>
    intro J k
    obtain ⟨J1, a1, b1⟩ := ih1 k
    obtain ⟨J2, a2, b2⟩ := ih2 a1
    exact ⟨J2, a2, .cons b1 b2⟩
  | declare h1 h2 =>
    exact fun k => ⟨_, fun x hx => hx.imp id (k x), .declare (h1.weaken k) h2⟩
  | assign h1 h2 =>
    exact fun k => ⟨_, fun x hx => hx.imp id (k x), .assign (h1.weaken k) h2⟩
  | field h1 h2 => exact fun k => ⟨_, k, .field (h1.weaken k) (h2.weaken k)⟩
  | elem h1 h2 h3 h4 h5 h6 h7 h8 h9 =>
    exact fun k => ⟨_, k, .elem (h1.weaken k) (h2.weaken k) (h3.weaken k) h4 h5 h6 h7 h8 (h9.weaken k)⟩
  | compound h1 h2 h3 h4 h5 h6 h7 h8 =>
    exact fun k => ⟨_, k, .compound h1 (h2.weaken k) (h3.weaken k) h4 h5 h6 h7 h8⟩
  | compoundElem h1 h2 h3 h4 h5 h6 h7 h8 h9 h10 h11 =>
    exact fun k => ⟨_, k, .compoundElem h1 (h2.weaken k) (h3.weaken k) h4 h5 h6 h7 h8 h9 h10 (h11.weaken k)⟩
  | const => exact fun k => ⟨_, k, .const⟩
  | proc => exact fun k => ⟨_, k, .proc⟩
  | ifThen h1 _ ih =>
    intro J k
    obtain ⟨J1, a1, b1⟩ := ih k
    exact ⟨_, k, .ifThen (h1.weaken k) b1⟩
  | ifElse h1 _ _ ih1 ih2 =>
    intro J k
    obtain ⟨J1, a1, b1⟩ := ih1 k
    obtain ⟨J2, a2, b2⟩ := ih2 k
    exact ⟨_, fun x hx => ⟨a1 x hx.1, a2 x hx.2⟩, .ifElse (h1.weaken k) b1 b2⟩
  | «while» h1 _ ih =>
    intro J k
    obtain ⟨J1, a1, b1⟩ := ih k
    exact ⟨_, k, .while (h1.weaken k) b1⟩
  | «for» _ h1 _ _ ih1 ih2 ih3 =>
    intro J k
    obtain ⟨J1, a1, b1⟩ := ih1 k
    obtain ⟨J2, a2, b2⟩ := ih2 a1
    obtain ⟨J3, a3, b3⟩ := ih3 a1
    exact ⟨_, a1, .for b1 (h1.weaken a1) b2 b3⟩
  | ret h => exact fun k => ⟨_, fun _ _ => trivial, .ret fun x e => (h x e).weaken k⟩
  | brk => exact fun _ => ⟨_, fun _ _ => trivial, .brk⟩
  | cont => exact fun _ => ⟨_, fun _ _ => trivial, .cont⟩
  | use => exact fun k => ⟨_, k, .use⟩

/-! ## Types are unique -/

theorem BinTy.unique {op : Tok} {l r t t' : Tag} (h : BinTy op l r t) (k : BinTy op l r t') : t = t' := by
  cases h with
  | ints hop =>
    simp only [List.mem_cons, List.not_mem_nil, or_false] at hop
    rcases hop with rfl | rfl | rfl | rfl <;> cases k <;> simp_all
  | floats hop hl hr hn =>
    simp only [List.mem_cons, List.not_mem_nil, or_false] at hop
    rcases hop with rfl | rfl | rfl | rfl <;> cases k <;> simp_all
  | bits hop =>
    simp only [List.mem_cons, List.not_mem_nil, or_false] at hop
    rcases hop with rfl | rfl | rfl | rfl | rfl <;> cases k <;> simp_all
  | logic hop =>
    simp only [List.mem_cons, List.not_mem_nil, or_false] at hop
    rcases hop with rfl | rfl <;> cases k <;> simp_all
  | order hop hl hr =>
    simp only [List.mem_cons, List.not_mem_nil, or_false] at hop
    rcases hop with rfl | rfl | rfl | rfl <;> cases k <;> simp_all
  | equality hop _ _ =>
    simp only [List.mem_cons, List.not_mem_nil, or_false] at hop
    rcases hop with rfl | rfl <;> cases k <;> simp_all

theorem UnTy.unique {op : Tok} {e t t' : Tag} (h : UnTy op e t) (k : UnTy op e t') : t = t' := by
  cases h <;> cases k <;> rfl

theorem HasType.dot_inv {Γ : TyEnv} {l : Expr} {field : Name} {tag : Option Tag} {t : Tag} (h : HasType Γ (.dot l field tag) t) :
    ∃ n fs, tag = some (Γ.structTag n) ∧ HasType Γ l (Γ.structTag n) ∧ Γ.fields n = some fs ∧ fieldType fs field = some t := by
  cases h with
  | dot h1 h2 h3 => exact ⟨_, _, rfl, h1, h2, h3⟩

theorem structTag_inj {Γ : TyEnv} {n m : Name} (h : Γ.structTag n = Γ.structTag m) : n = m := by
  have := congrArg Tag.structName h
  rw [structName_tag, structName_tag] at this
  exact Option.some.inj this

theorem HasType.unique {Γ : TyEnv} {e : Expr} {t : Tag} (h : HasType Γ e t) : ∀ {t'}, HasType Γ e t' → t = t' := by
  induction h with
  | id h => intro t' k; cases k with | id k => rw [h] at k; cases k; rfl
  | paren _ ih => intro t' k; cases k with | paren k => exact ih k
  | bin _ _ h ih1 ih2 => intro t' k; cases k with | bin k1 k2 k => rw [ih1 k1, ih2 k2] at h; exact h.unique k
  | un _ h ih => intro t' k; cases k with | un k1 k => rw [ih k1] at h; exact h.unique k
  | call h => intro t' k; cases k with | call k => rw [h] at k; cases k; rfl
  | dot _ h1 h2 =>
    intro t' k
    obtain ⟨n, fs, e, _, k1, k2⟩ := k.dot_inv
    cases structTag_inj (Option.some.inj e)
    rw [h1] at k1; cases k1; rw [h2] at k2; cases k2; rfl
  | index _ _ h3 _ ih1 _ => intro t' k; cases k with | index k1 _ k3 _ => rw [← ih1 k1, h3] at k3; cases k3; rfl
  | ite _ _ _ _ ih _ => intro t' k; cases k with | ite _ k _ => exact ih k
  | _ => intro t' k; cases k; rfl

/-! ## The induction -/

/-- All functions of the interpreter, with `n` fuel. -/
structure Sound (Γ : TyEnv) (D : Discipline) (Φ : HostTypes) (c : Ctx) (n : Nat) : Prop where
  e : ∀ {L I S ρ w e t}, HasType (Γ.enter L) e t → CoreE (Γ.enter L) D I e → WorldTy Γ Φ S I w →
    LocalsTy (Γ.enter L) Φ S I w.heap ρ → Good (evalE c n e ρ w) (EPost Γ Φ I S w.heap t)
  es : ∀ {L I S ρ w es} {ts : List Tag}, ts.length = es.length →
    (∀ (k : Nat) a t, es[k]? = some a → ts[k]? = some t → HasType (Γ.enter L) a t) → CoreEs (Γ.enter L) D I es →
    WorldTy Γ Φ S I w → LocalsTy (Γ.enter L) Φ S I w.heap ρ → Good (evalList c n es ρ w) (LPost Γ Φ I S w.heap ts)
  named : ∀ {L I S ρ w args} {fs : List (Name × Tag)},
    (∀ f ∈ fs, ∃ p t, args.find? (·.1 = f.1) = some p ∧ HasType (Γ.enter L) p.2 t ∧ CoreE (Γ.enter L) D I p.2 ∧ Assignable t f.2) →
    WorldTy Γ Φ S I w → LocalsTy (Γ.enter L) Φ S I w.heap ρ →
    Good (evalNamed c n args (fs.map Prod.fst) ρ w) (LPost Γ Φ I S w.heap (fs.map Prod.snd))
  call : ∀ {I S w name f sig} {vs : List Value}, Γ.func name = some (f, sig) → Ready D I f → Arity sig vs.length →
    (∀ v ∈ vs, Sane S w.heap v) → (∀ (k : Nat) v t, vs[k]? = some v → sig.params[k]? = some t → ValTy Φ S w.heap v t) →
    WorldTy Γ Φ S I w → Good (call c n f vs w) (EPost Γ Φ I S w.heap sig.ret)
  rhs : ∀ {L I S ρ w op lhs rhs t}, (compound op = none ∧ HasType (Γ.enter L) rhs t ∨
      ∃ o tl tr, compound op = some o ∧ HasType (Γ.enter L) lhs tl ∧ CoreE (Γ.enter L) D I lhs ∧ HasType (Γ.enter L) rhs tr ∧
        BinTy o tl tr t) → CoreE (Γ.enter L) D I rhs → WorldTy Γ Φ S I w → LocalsTy (Γ.enter L) Φ S I w.heap ρ →
    Good (evalRhs c n op lhs rhs ρ w) (EPost Γ Φ I S w.heap t)
  assign : ∀ {L I S ρ w op lhs rhs loop ret I'}, Checked (Γ.enter L) ret (.assign op lhs rhs) → Flow (Γ.enter L) D loop I (.assign op lhs rhs) I' →
    WorldTy Γ Φ S I w → LocalsTy (Γ.enter L) Φ S I w.heap ρ →
    Good (execAssign c n op lhs rhs ρ w) fun r => ∃ S', Later S w.heap S' r.2.heap ∧ WorldTy Γ Φ S' I' r.2 ∧ LocalsTy (Γ.enter L) Φ S' I' r.2.heap r.1
  s : ∀ {L I S ρ w s loop ret I'}, Checked (Γ.enter L) ret s → Flow (Γ.enter L) D loop I s I' →
    WorldTy Γ Φ S I w → LocalsTy (Γ.enter L) Φ S I w.heap ρ → Good (execS c n s ρ w) (SPost Γ Φ L loop ret I I' S w.heap)
  ss : ∀ {L I S ρ w ss loop ret I'}, (∀ s ∈ ss, Checked (Γ.enter L) ret s) → Flow (Γ.enter L) D loop I (.block ss) I' →
    WorldTy Γ Φ S I w → LocalsTy (Γ.enter L) Φ S I w.heap ρ → Good (execSs c n ss ρ w) (SPost Γ Φ L loop ret I I' S w.heap)
  loop : ∀ {L I S ρ w cond step body loop ret I₁}, HasType (Γ.enter L) cond .bool → CoreE (Γ.enter L) D I cond →
    Checked (Γ.enter L) ret body → Flow (Γ.enter L) D true I body I₁ →
    (∀ s, step = some s → Checked (Γ.enter L) ret s ∧ ∃ I₂, Flow (Γ.enter L) D false I s I₂) →
    WorldTy Γ Φ S I w → LocalsTy (Γ.enter L) Φ S I w.heap ρ →
    Good (execLoop c n cond step body ρ w) (SPost Γ Φ L loop ret I I S w.heap)

variable {Γ : TyEnv} {D : Discipline} {Φ : HostTypes} {c : Ctx}

theorem EPost.good {I : VarSym → Prop} {S : ObjTypes} {h : Heap} {t : Tag} {w : World} {r : Res Value} (l : Later S h S w.heap)
    (hw : WorldTy Γ Φ S I w) (k : Good r fun v => ValTy Φ S w.heap v t) :
    Good (r >>= fun v => .ok (v, w)) (EPost Γ Φ I S h t) := k.bind fun _ hv => .ok ⟨S, l, hw, hv⟩

theorem coreEs_cons {I : VarSym → Prop} {e : Expr} {es : List Expr} : CoreEs Γ D I (e :: es) ↔ CoreE Γ D I e ∧ CoreEs Γ D I es := by
  rw [CoreEs]

theorem coreEs_mem {I : VarSym → Prop} : ∀ {es : List Expr}, CoreEs Γ D I es → ∀ e ∈ es, CoreE Γ D I e
  | [], _, _, h => by cases h
  | x :: xs, h, e, he => by
    rw [coreEs_cons] at h
    rcases List.mem_cons.1 he with rfl | he
    · exact h.1
    · exact coreEs_mem h.2 e he

theorem EPost.later {I : VarSym → Prop} {S S' : ObjTypes} {h h' : Heap} {t : Tag} {r : Value × World} (l : Later S h S' h')
    (k : EPost Γ Φ I S' h' t r) : EPost Γ Φ I S h t r := by
  obtain ⟨S2, a, b, d⟩ := k
  exact ⟨S2, l.trans a, b, d⟩

theorem find_zip {names : List Name} {args : List Expr} {x : Name} (h : ∃ k : Nat, k < args.length ∧ names[k]? = some x) :
    ∃ (k : Nat) (a : Expr), names[k]? = some x ∧ args[k]? = some a ∧ (names.zip args).find? (·.1 = x) = some (x, a) := by
  induction names generalizing args with
  | nil => obtain ⟨k, _, h⟩ := h; simp at h
  | cons n ns ih =>
    obtain ⟨k, h1, h2⟩ := h
    cases args with
    | nil => simp at h1
    | cons a as =>
      by_cases e : n = x
      · subst e; exact ⟨0, a, rfl, rfl, by simp⟩
      · cases k with
        | zero => simp at h2; exact (e h2).elim
        | succ k =>
          obtain ⟨j, b, j1, j2, j3⟩ := ih (args := as) ⟨k, by simpa using h1, by simpa using h2⟩
          exact ⟨j + 1, b, by simpa using j1, by simpa using j2, by simp [e, j3]⟩

theorem fieldType_nodup {fs : List (Name × Tag)} (hn : (fs.map Prod.fst).Nodup) {f : Name × Tag} (hf : f ∈ fs) : fieldType fs f.1 = some f.2 := by
  induction fs with
  | nil => cases hf
  | cons x xs ih =>
    simp only [List.map_cons, List.nodup_cons] at hn
    rcases List.mem_cons.1 hf with rfl | hf
    · simp [fieldType]
    · have : x.1 ≠ f.1 := fun e => hn.1 (e ▸ List.mem_map_of_mem hf)
      have := ih hn.2 hf
      simpa [fieldType, ‹x.1 ≠ f.1›] using this

theorem takes_vals {S : ObjTypes} {h : Heap} {sig : Sig} {ts : List Tag} {vs : List Value} (ht : Takes sig ts) (hv : ValsTy Φ S h vs ts) :
    ∀ (k : Nat) v t, vs[k]? = some v → sig.params[k]? = some t → ValTy Φ S h v t := by
  intro k v t h1 h2
  have hk : k < ts.length := by rw [← hv.1]; exact (List.getElem?_eq_some_iff.1 h1).1
  exact (hv.2 k v _ h1 (List.getElem?_eq_getElem hk)).assign (ht.2 k _ t (List.getElem?_eq_getElem hk) h2)

/-- Calling a function which takes arguments of these types. -/
theorem Sound.takes {n : Nat} (ih : Sound Γ D Φ c n) {I : VarSym → Prop} {S : ObjTypes} {w : World} {name : Name} {f : FnSym} {sig : Sig}
    {vs : List Value} {ts : List Tag} (hf : Γ.func name = some (f, sig)) (hr : Ready D I f) (ht : Takes sig ts) (hv : ValsTy Φ S w.heap vs ts)
    (hw : WorldTy Γ Φ S I w) : Good (Spec.call c n f vs w) (EPost Γ Φ I S w.heap sig.ret) :=
  ih.call hf hr (by rw [hv.1]; exact ht.1) hv.sane (takes_vals ht hv) hw

theorem sound_e (hs : Setting Γ D Φ c) {n : Nat} (ih : Sound Γ D Φ c n) : ∀ {L I S ρ w e t}, HasType (Γ.enter L) e t → CoreE (Γ.enter L) D I e →
    WorldTy Γ Φ S I w → LocalsTy (Γ.enter L) Φ S I w.heap ρ → Good (evalE c (n + 1) e ρ w) (EPost Γ Φ I S w.heap t) := by
  intro L I S ρ w e t ht hc hw hl
  have here : ∀ {v t}, ValTy Φ S w.heap v t → EPost Γ Φ I S w.heap t (v, w) := fun k => ⟨S, .refl _ _, hw, k⟩
  cases ht with
  | null => exact Good.ok (here trivial)
  | bool => exact Good.ok (here ⟨_, rfl⟩)
  | int => exact Good.ok (here ⟨_, rfl⟩)
  | char => exact Good.ok (here ⟨_, rfl⟩)
  | float => exact Good.ok (here ⟨_, rfl⟩)
  | str =>
    simp only [evalE, strConst]
    split
    · exact Good.ok (here (.inl ⟨_, rfl⟩))
    · trivial
  | @id m s t hv =>
    rw [evalE]
    refine EPost.good (.refl _ _) hw (readVar_good (Γ := Γ.enter L) hs.consts (WorldTy.enter.2 hw) hl hv ?_)
    cases s with
    | const v => exact .inl ⟨v, rfl⟩
    | glob i => rw [CoreE] at hc <;> first | exact .inr hc | simp
    | loc i => rw [CoreE] at hc <;> first | exact .inr hc | simp
  | paren h => rw [CoreE] at hc; rw [evalE]; exact ih.e h hc hw hl
  | @bin op l r tl tr t h1 h2 h3 =>
    rw [CoreE] at hc
    by_cases c1 : op = .logAnd
    · subst c1
      obtain ⟨rfl, rfl, rfl⟩ : tl = .bool ∧ tr = .bool ∧ t = .bool := by cases h3 <;> simp_all
      rw [evalE]
      refine (ih.e h1 hc.1 hw hl).bind ?_
      rintro ⟨v, w1⟩ ⟨S1, l1, hw1, b, rfl⟩
      cases b with
      | false => exact Good.ok ⟨S1, l1, hw1, ⟨_, rfl⟩⟩
      | true => exact (ih.e h2 hc.2 hw1 (hl.later hs.mono l1)).mono fun _ k => k.later l1
    · by_cases c2 : op = .logOr
      · subst c2
        obtain ⟨rfl, rfl, rfl⟩ : tl = .bool ∧ tr = .bool ∧ t = .bool := by cases h3 <;> simp_all
        rw [evalE]
        refine (ih.e h1 hc.1 hw hl).bind ?_
        rintro ⟨v, w1⟩ ⟨S1, l1, hw1, b, rfl⟩
        cases b with
        | true => exact Good.ok ⟨S1, l1, hw1, ⟨_, rfl⟩⟩
        | false => exact (ih.e h2 hc.2 hw1 (hl.later hs.mono l1)).mono fun _ k => k.later l1
      · rw [evalE]
        · refine (ih.e h1 hc.1 hw hl).bind ?_
          rintro ⟨v, w1⟩ ⟨S1, l1, hw1, k1⟩
          refine (ih.e h2 hc.2 hw1 (hl.later hs.mono l1)).bind ?_
          rintro ⟨v2, w2⟩ ⟨S2, l2, hw2, k2⟩
          simp only
          split
          · trivial
          · exact (binary_good h3 c1 c2 (k1.mono hs.mono l2) k2).bind fun x hx => .ok ⟨S2, l1.trans l2, hw2, hx⟩
        · exact fun e => c1 e
        · exact fun e => c2 e
  | @un op e te t h1 h2 =>
    rw [CoreE] at hc
    cases h2 with
    | neg hn =>
      rw [evalE]
      refine (ih.e h1 hc hw hl).bind ?_
      rintro ⟨v, w1⟩ ⟨S1, l1, hw1, k1⟩
      exact (negate_good hn k1).bind fun x hx => .ok ⟨S1, l1, hw1, hx⟩
    | not =>
      rw [evalE]
      refine (ih.e h1 hc hw hl).bind ?_
      rintro ⟨v, w1⟩ ⟨S1, l1, hw1, b, rfl⟩
      exact Good.ok ⟨S1, l1, hw1, ⟨_, rfl⟩⟩
  | @call m f sig args ts h1 h2 h3 h4 h5 =>
    rw [CoreE] at hc
    obtain ⟨hc1, f', sig', e1, har, hrd⟩ := hc
    rw [h1] at e1
    cases e1
    rw [evalE]
    refine (ih.es h2 h3 hc1 hw hl).bind ?_
    rintro ⟨vs, w1⟩ ⟨S1, l1, hw1, k1⟩
    have hf : c.globals.funcs m = some f := by
      rw [hs.funcs]
      rw [show Γ.func m = some (f, sig) from h1]
      rfl
    simp only [hf]
    exact (ih.takes h1 hrd ⟨by rw [h2]; exact har, h5⟩ k1 hw1).mono fun _ k => k.later l1
  | @dot l m fs field t h1 h2 h3 =>
    rw [CoreE] at hc
    rw [evalE]
    refine (ih.e h1 hc hw hl).bind ?_
    rintro ⟨v, w1⟩ ⟨S1, l1, hw1, k1⟩
    exact (getField_good hs.named hw1 hs.structs k1 h2 h3).bind fun x hx => .ok ⟨S1, l1, hw1, hx⟩
  | @index arr el ta te g sig setF h1 h2 h3 h4 =>
    rw [CoreE] at hc
    obtain ⟨hc1, hc2, ta', te', g', sig', a1, a2, a3, a4, a5, a6⟩ := hc
    cases a4
    rw [evalE]
    refine (ih.e a1 hc1 hw hl).bind ?_
    rintro ⟨v, w1⟩ ⟨S1, l1, hw1, k1⟩
    refine (ih.e a2 hc2 hw1 (hl.later hs.mono l1)).bind ?_
    rintro ⟨v2, w2⟩ ⟨S2, l2, hw2, k2⟩
    simp only
    obtain rfl := a1.unique h1
    have e3 := a3.symm.trans h3
    cases e3
    exact (ih.takes a3 a6 a5 (.cons (k1.mono hs.mono l2) (.cons k2 .nil)) hw2).mono fun _ k => (k.later l2).later l1
  | @ctor m fs args ts h1 h2 h3 h4 h5 =>
    rw [CoreE] at hc
    obtain ⟨hc1, fs', e1, hne, har⟩ := hc
    rw [h1] at e1
    cases e1
    have hf : c.globals.structs m = some fs := by rw [hs.structs]; exact h1
    rw [evalE]
    simp only [hf]
    split
    · trivial
    · refine (ih.es h2 h3 hc1 hw hl).bind ?_
      rintro ⟨vs, w1⟩ ⟨S1, l1, hw1, k1⟩
      refine (alloc_good hs.mono hs.named hw1 (n := m) h1 (by rw [k1.1, h2, har]) hne ?_).mono fun _ k => ?_
      · intro k v f e1 e2
        have hk : k < ts.length := by rw [← k1.1]; exact (List.getElem?_eq_some_iff.1 e1).1
        exact (k1.2 k v _ e1 (List.getElem?_eq_getElem hk)).assign (h5 k _ f (List.getElem?_eq_getElem hk) e2)
      · obtain ⟨S2, a, b, d⟩ := k
        exact ⟨S2, l1.trans a, b, d⟩
  | @ctorNamed m fs names args ts h1 h2 h3 h4 h5 h6 h7 =>
    rw [CoreE] at hc
    obtain ⟨hc1, fs', e1, hne, hnd, hall⟩ := hc
    rw [h1] at e1
    cases e1
    have hf : c.globals.structs m = some fs := by rw [hs.structs]; exact h1
    rw [evalE]
    simp only [hf]
    split
    · trivial
    · refine (ih.named (args := names.zip args) (fs := fs) (fun f hf => ?_) hw hl).bind ?_
      · obtain ⟨k, a, j1, j2, j3⟩ := find_zip (hall f hf)
        have hk : k < ts.length := by rw [h3]; exact (List.getElem?_eq_some_iff.1 j2).1
        obtain ⟨ft, i1, i2⟩ := h7 k _ f.1 (List.getElem?_eq_getElem hk) j1
        rw [fieldType_nodup hnd hf] at i1
        cases i1
        exact ⟨_, _, j3, h4 k a _ j2 (List.getElem?_eq_getElem hk), coreEs_mem hc1 a (List.mem_of_getElem? j2), i2⟩
      · rintro ⟨vs, w1⟩ ⟨S1, l1, hw1, k1⟩
        refine (alloc_good hs.mono hs.named hw1 (n := m) h1 (by simpa using k1.1) hne ?_).mono fun _ k => ?_
        · intro k v f e1 e2
          exact k1.2 k v _ e1 (by simp [e2])
        · obtain ⟨S2, a, b, d⟩ := k
          exact ⟨S2, l1.trans a, b, d⟩
  | @cast e t tag h1 h2 =>
    rw [CoreE] at hc
    rw [evalE]
    rcases hc.2 with rfl | ⟨rfl, u, rfl⟩
    · refine (ih.e h1 hc.1 hw hl).mono ?_
      rintro ⟨v, w1⟩ ⟨S1, l1, hw1, k1⟩
      exact ⟨S1, l1, hw1, k1.sane⟩
    · cases n with
      | zero => unfold evalE; trivial
      | succ n => exact Good.ok (here (.inl rfl))
  | ite h1 h2 h3 =>
    rw [CoreE] at hc
    rw [evalE]
    refine (ih.e h1 hc.1 hw hl).bind ?_
    rintro ⟨v, w1⟩ ⟨S1, l1, hw1, b, rfl⟩
    cases b with
    | true => exact (ih.e h2 hc.2.1 hw1 (hl.later hs.mono l1)).mono fun _ k => k.later l1
    | false => exact (ih.e h3 hc.2.2 hw1 (hl.later hs.mono l1)).mono fun _ k => k.later l1

theorem sound_es (hs : Setting Γ D Φ c) {n : Nat} (ih : Sound Γ D Φ c n) : ∀ {L I S ρ w es} {ts : List Tag}, ts.length = es.length →
    (∀ (k : Nat) a t, es[k]? = some a → ts[k]? = some t → HasType (Γ.enter L) a t) → CoreEs (Γ.enter L) D I es →
    WorldTy Γ Φ S I w → LocalsTy (Γ.enter L) Φ S I w.heap ρ → Good (evalList c (n + 1) es ρ w) (LPost Γ Φ I S w.heap ts) := by
  intro L I S ρ w es ts h1 h2 hc hw hl
  cases es with
  | nil =>
    cases ts with
    | nil => exact Good.ok ⟨S, .refl _ _, hw, .nil⟩
    | cons _ _ => simp at h1
  | cons e es =>
    cases ts with
    | nil => simp at h1
    | cons t ts =>
      rw [coreEs_cons] at hc
      rw [evalList]
      refine (ih.e (h2 0 e t rfl rfl) hc.1 hw hl).bind ?_
      rintro ⟨v, w1⟩ ⟨S1, l1, hw1, k1⟩
      refine (ih.es (ts := ts) (by simpa using h1) (fun k a t e1 e2 => h2 (k + 1) a t (by simpa using e1) (by simpa using e2)) hc.2 hw1
        (hl.later hs.mono l1)).bind ?_
      rintro ⟨vs, w2⟩ ⟨S2, l2, hw2, k2⟩
      exact Good.ok ⟨S2, l1.trans l2, hw2, .cons (k1.mono hs.mono l2) k2⟩

theorem sound_named (hs : Setting Γ D Φ c) {n : Nat} (ih : Sound Γ D Φ c n) : ∀ {L I S ρ w args} {fs : List (Name × Tag)},
    (∀ f ∈ fs, ∃ p t, args.find? (·.1 = f.1) = some p ∧ HasType (Γ.enter L) p.2 t ∧ CoreE (Γ.enter L) D I p.2 ∧ Assignable t f.2) →
    WorldTy Γ Φ S I w → LocalsTy (Γ.enter L) Φ S I w.heap ρ →
    Good (evalNamed c (n + 1) args (fs.map Prod.fst) ρ w) (LPost Γ Φ I S w.heap (fs.map Prod.snd)) := by
  intro L I S ρ w args fs h hw hl
  cases fs with
  | nil => exact Good.ok ⟨S, .refl _ _, hw, .nil⟩
  | cons f fs =>
    obtain ⟨p, t, h1, h2, h3, h4⟩ := h f (List.mem_cons_self ..)
    simp only [List.map_cons, evalNamed, h1]
    refine (ih.e h2 h3 hw hl).bind ?_
    rintro ⟨v, w1⟩ ⟨S1, l1, hw1, k1⟩
    refine (ih.named (fs := fs) (fun f hf => h f (List.mem_cons_of_mem _ hf)) hw1 (hl.later hs.mono l1)).bind ?_
    rintro ⟨vs, w2⟩ ⟨S2, l2, hw2, k2⟩
    exact Good.ok ⟨S2, l1.trans l2, hw2, .cons ((k1.mono hs.mono l2).assign h4) k2⟩

/-- The variables of a call. -/
theorem frame_ty {fn : Fn} {params : List Tag} {L : Int → Option Tag} {r : Tag} (hf : CoreFn Γ D fn params L r) {S : ObjTypes} {h : Heap} {vs : List Value}
    (hv : ValsTy Φ S h vs params) {I : VarSym → Prop} (hI : ∀ i, I (.loc i) → i < 0) :
    LocalsTy (Γ.enter L) Φ S I h ⟨vs, List.replicate fn.nlocals .null⟩ := by
  intro i t hi
  have hi : L i = some t := hi
  obtain ⟨h1, h2⟩ := hf.slots i t hi
  have hn : vs.length = fn.nargs := by rw [hv.1, hf.nargs]
  by_cases h0 : 0 ≤ i
  · refine ⟨.null, ?_, fun k => absurd (hI i k) (by omega)⟩
    simp only [Vars.get, if_pos h0]
    rw [List.getElem?_replicate, if_pos (by omega)]
  · have hk : (vs.length + i).toNat < vs.length := by omega
    refine ⟨vs[(vs.length + i).toNat], ?_, fun _ => ?_⟩
    · simp only [Vars.get, if_neg h0]
      rw [if_pos (by omega), List.getElem?_eq_getElem hk]
    · have hp : (vs.length + i).toNat < params.length := by rw [← hv.1]; exact hk
      have := hf.args _ _ (List.getElem?_eq_getElem hp)
      rw [show (((vs.length + i).toNat : Nat) : Int) - fn.nargs = i by omega, hi] at this
      cases this
      exact hv.2 _ _ _ (List.getElem?_eq_getElem hk) (List.getElem?_eq_getElem hp)

theorem takesNull {S : ObjTypes} {h : Heap} : ∀ {t : Tag}, TakesNull t → ValTy Φ S h .null t
  | .void, _ => trivial
  | .any, _ => trivial
  | .nullable _, _ => .inl rfl

theorem sound_call (hs : Setting Γ D Φ c) {n : Nat} (ih : Sound Γ D Φ c n) : ∀ {I S w name f sig} {vs : List Value},
    Γ.func name = some (f, sig) → Ready D I f → Arity sig vs.length → (∀ v ∈ vs, Sane S w.heap v) →
    (∀ (k : Nat) v t, vs[k]? = some v → sig.params[k]? = some t → ValTy Φ S w.heap v t) → WorldTy Γ Φ S I w →
    Good (call c (n + 1) f vs w) (EPost Γ Φ I S w.heap sig.ret) := by
  intro I S w name f sig vs hf hr har hsane hv hw
  cases f with
  | «foreign» i na va =>
    obtain ⟨a1, rfl, rfl, a4⟩ := hs.foreign name i na va sig hf
    rw [call]
    rw [if_pos ⟨har, a1⟩]
    refine (a4 S I w vs hw (fun hb => hr ?_) har hsane hv).bind ?_
    · rintro i' na' va' e
      cases e
      exact hb
    · rintro ⟨v, w1⟩ ⟨S1, l1, hw1, k1⟩
      exact Good.ok ⟨S1, l1, ⟨hw1.heap, hw1.globs⟩, k1⟩
  | tiny i =>
    obtain ⟨a1, fn, L, a2, a3, a4⟩ := hs.tiny name i sig hf
    have hlen : vs.length = fn.nargs := by
      rw [a3.nargs]
      rcases har with h | ⟨h, -⟩
      · exact h
      · rw [a1] at h; cases h
    have hvp : ValsTy Φ S w.heap vs sig.params := ⟨by rw [hlen, a3.nargs], hv⟩
    rw [call]
    simp only [a2]
    rw [if_pos hlen]
    obtain ⟨I', hfl⟩ := a3.flow
    have hw' : WorldTy Γ Φ S (fun s => (I s ∧ ∃ g, s = .glob g) ∨ ∃ i, s = .loc i ∧ i < 0) w :=
      ⟨hw.heap, fun i t e => by
        obtain ⟨v, x, y⟩ := hw.globs i t e
        refine ⟨v, x, fun k => y ?_⟩
        rcases k with k | ⟨_, k, _⟩
        · exact k.1
        · cases k⟩
    obtain ⟨J', -, hfl⟩ := hfl.weaken (J := fun s => (I s ∧ ∃ g, s = .glob g) ∨ ∃ i, s = .loc i ∧ i < 0) fun x k => by
      rcases k with ⟨g, rfl, k⟩ | k
      · exact .inl ⟨hr (by intro i na va e; cases e) g k, g, rfl⟩
      · exact .inr k
    have hl : LocalsTy (Γ.enter L) Φ S (fun s => (I s ∧ ∃ g, s = .glob g) ∨ ∃ i, s = .loc i ∧ i < 0) w.heap
        ⟨vs, List.replicate fn.nlocals .null⟩ := frame_ty a3 hvp fun i k => by
      rcases k with ⟨_, g, k⟩ | ⟨_, k, h⟩
      · cases k
      · cases k; exact h
    have key := ih.s a4 hfl hw' hl
    cases hx : execS c n fn.body ⟨vs, List.replicate fn.nlocals .null⟩ w with
    | ok x =>
      obtain ⟨o, ρ, w1⟩ := x
      rw [hx] at key
      obtain ⟨S1, l1, hw1, -, -, hb, hv⟩ := key
      have hw3 : WorldTy Γ Φ S1 I w1 := ⟨hw1.heap, fun i t e => by
        obtain ⟨v, x, y⟩ := hw1.globs i t e
        exact ⟨v, x, fun k => y (.inl ⟨k, i, rfl⟩)⟩⟩
      cases o with
      | normal =>
        refine Good.ok ⟨S1, l1, hw3, ?_⟩
        rcases a3.ends with e | e
        · exact takesNull e
        · exact ((returns_not_normal c n).1 _ _ _ _ _ _ e hx rfl).elim
      | ret v =>
        obtain ⟨t, e, k⟩ := hv v rfl
        cases e
        exact Good.ok ⟨S1, l1, hw3, k⟩
      | brk => exact absurd (hb (.inl rfl)) (by simp)
      | cont => exact absurd (hb (.inr rfl)) (by simp)
    | abort => rw [hx] at key; exact key.elim
    | limit => rw [hx] at key; exact key.elim
    | ub => trivial
    | timeout => trivial

theorem compound_bin {op o : Tok} (h : compound op = some o) : o ≠ .logAnd ∧ o ≠ .logOr := by
  cases op <;> simp [compound] at h <;> subst h <;> simp

theorem sound_rhs (hs : Setting Γ D Φ c) {n : Nat} (ih : Sound Γ D Φ c n) : ∀ {L I S ρ w op lhs rhs t},
    (compound op = none ∧ HasType (Γ.enter L) rhs t ∨
      ∃ o tl tr, compound op = some o ∧ HasType (Γ.enter L) lhs tl ∧ CoreE (Γ.enter L) D I lhs ∧ HasType (Γ.enter L) rhs tr ∧
        BinTy o tl tr t) → CoreE (Γ.enter L) D I rhs → WorldTy Γ Φ S I w → LocalsTy (Γ.enter L) Φ S I w.heap ρ →
    Good (evalRhs c (n + 1) op lhs rhs ρ w) (EPost Γ Φ I S w.heap t) := by
  intro L I S ρ w op lhs rhs t h hc hw hl
  rw [evalRhs]
  rcases h with ⟨h1, h2⟩ | ⟨o, tl, tr, h1, h2, h3, h4, h5⟩
  · simp only [h1]
    exact ih.e h2 hc hw hl
  · simp only [h1]
    refine (ih.e h2 h3 hw hl).bind ?_
    rintro ⟨v, w1⟩ ⟨S1, l1, hw1, k1⟩
    refine (ih.e h4 hc hw1 (hl.later hs.mono l1)).bind ?_
    rintro ⟨v2, w2⟩ ⟨S2, l2, hw2, k2⟩
    simp only
    split
    · trivial
    · exact (binary_good h5 (compound_bin h1).1 (compound_bin h1).2 (k1.mono hs.mono l2) k2).bind fun x hx => .ok ⟨S2, l1.trans l2, hw2, hx⟩

/-- Storing a value in a variable. -/
theorem store_var (hs : Setting Γ D Φ c) {n : Nat} {L : Int → Option Tag} {I : VarSym → Prop} {S : ObjTypes} {ρ : Vars} {w : World} {op : Tok}
    {m : Name} {s : VarSym} {rhs : Expr} {t t' : Tag} (hop : op = .equal ∨ op = .declare ∨ (compound op).isSome = true) (hsv : ∀ v, s ≠ .const v)
    (hv : (Γ.enter L).var s = some t) (ha : t' = t ∨ Assignable t' t) (hl : LocalsTy (Γ.enter L) Φ S I w.heap ρ)
    (h : Good (evalRhs c n op (.id m (some s)) rhs ρ w) (EPost Γ Φ I S w.heap t')) :
    Good (execAssign c (n + 1) op (.id m (some s)) rhs ρ w) fun r => ∃ S', Later S w.heap S' r.2.heap ∧ WorldTy Γ Φ S' (plus I s) r.2 ∧
      LocalsTy (Γ.enter L) Φ S' (plus I s) r.2.heap r.1 := by
  have hd : op ≠ .declareConst := by rintro rfl; simp [compound] at hop
  have conv : ∀ {S v} {h : Heap}, ValTy Φ S h v t' → ValTy Φ S h v t := by
    intro S v h k
    rcases ha with rfl | ha
    · exact k
    · exact k.assign ha
  cases s with
  | glob i =>
    simp only [execAssign, if_neg hd, if_pos hop]
    refine h.bind ?_
    rintro ⟨v, w1⟩ ⟨S1, l1, hw1, k1⟩
    simp only
    obtain ⟨a, b⟩ := hw1.set (t := t) hv (conv k1)
    split
    · trivial
    · exact Good.ok ⟨S1, l1, b, (hl.later hs.mono l1).glob i⟩
  | loc i =>
    simp only [execAssign, if_neg hd, if_pos hop]
    refine h.bind ?_
    rintro ⟨v, w1⟩ ⟨S1, l1, hw1, k1⟩
    obtain ⟨ρ', a, b⟩ := (hl.later hs.mono l1).set hv (conv k1)
    simp only [a, known, Res.bind_ok]
    exact Good.ok ⟨S1, l1, hw1.loc i, b⟩
  | const v => exact (hsv v rfl).elim

theorem store_field (hs : Setting Γ D Φ c) {n : Nat} (ih : Sound Γ D Φ c n) {L : Int → Option Tag} {I : VarSym → Prop} {S : ObjTypes} {ρ : Vars}
    {w : World} {op : Tok} {l : Expr} {field : Name} {tag : Option Tag} {rhs : Expr} {t t' : Tag}
    (hop : op = .equal ∨ op = .declare ∨ (compound op).isSome = true) (hd : HasType (Γ.enter L) (.dot l field tag) t) (ha : Assignable t' t)
    (hc : CoreE (Γ.enter L) D I l) (hl : LocalsTy (Γ.enter L) Φ S I w.heap ρ)
    (h : Good (evalRhs c n op (.dot l field tag) rhs ρ w) (EPost Γ Φ I S w.heap t')) :
    Good (execAssign c (n + 1) op (.dot l field tag) rhs ρ w) fun r => ∃ S', Later S w.heap S' r.2.heap ∧ WorldTy Γ Φ S' I r.2 ∧
      LocalsTy (Γ.enter L) Φ S' I r.2.heap r.1 := by
  have hd' : op ≠ .declareConst := by rintro rfl; simp [compound] at hop
  simp only [execAssign, if_neg hd', if_pos hop]
  refine h.bind ?_
  rintro ⟨x, w1⟩ ⟨S1, l1, hw1, k1⟩
  cases hd with
  | @dot _ m fs _ _ d1 d2 d3 =>
    refine (ih.e d1 hc hw1 (hl.later hs.mono l1)).bind ?_
    rintro ⟨v, w2⟩ ⟨S2, l2, hw2, k2⟩
    refine (setField_good hs.mono hs.named hw2 hs.structs k2 d2 d3 ((k1.mono hs.mono l2).assign ha)).bind ?_
    rintro w3 ⟨l3, hw3⟩
    exact Good.ok ⟨S2, (l1.trans l2).trans l3, hw3, hl.later hs.mono ((l1.trans l2).trans l3)⟩

theorem store_elem (hs : Setting Γ D Φ c) {n : Nat} (ih : Sound Γ D Φ c n) {L : Int → Option Tag} {I : VarSym → Prop} {S : ObjTypes} {ρ : Vars}
    {w : World} {op : Tok} {arr i : Expr} {g : Option FnSym} {f : FnSym} {rhs : Expr} {ta ti t : Tag} {sig : Sig} {name : Name}
    (hop : op = .equal ∨ op = .declare ∨ (compound op).isSome = true) (h1 : HasType (Γ.enter L) arr ta) (h2 : HasType (Γ.enter L) i ti)
    (c1 : CoreE (Γ.enter L) D I arr) (c2 : CoreE (Γ.enter L) D I i) (hf : Γ.func name = some (f, sig)) (ht : Takes sig [ta, ti, t]) (hr : Ready D I f)
    (hw : WorldTy Γ Φ S I w) (hl : LocalsTy (Γ.enter L) Φ S I w.heap ρ)
    (h : ∀ {S w}, WorldTy Γ Φ S I w → LocalsTy (Γ.enter L) Φ S I w.heap ρ →
      Good (evalRhs c n op (.index arr i g (some f)) rhs ρ w) (EPost Γ Φ I S w.heap t)) :
    Good (execAssign c (n + 1) op (.index arr i g (some f)) rhs ρ w) fun r => ∃ S', Later S w.heap S' r.2.heap ∧ WorldTy Γ Φ S' I r.2 ∧
      LocalsTy (Γ.enter L) Φ S' I r.2.heap r.1 := by
  have hd' : op ≠ .declareConst := by rintro rfl; simp [compound] at hop
  simp only [execAssign, if_neg hd', if_pos hop]
  refine (ih.e h1 c1 hw hl).bind ?_
  rintro ⟨a, w1⟩ ⟨S1, l1, hw1, k1⟩
  refine (ih.e h2 c2 hw1 (hl.later hs.mono l1)).bind ?_
  rintro ⟨x, w2⟩ ⟨S2, l2, hw2, k2⟩
  refine (h hw2 (hl.later hs.mono (l1.trans l2))).bind ?_
  rintro ⟨v, w3⟩ ⟨S3, l3, hw3, k3⟩
  simp only
  refine (ih.takes hf hr ht (.cons (k1.mono hs.mono (l2.trans l3)) (.cons (k2.mono hs.mono l3) (.cons k3 .nil))) hw3).bind ?_
  rintro ⟨u, w4⟩ ⟨S4, l4, hw4, k4⟩
  have l := ((l1.trans l2).trans l3).trans l4
  exact Good.ok ⟨S4, l, hw4, hl.later hs.mono l⟩

theorem sound_assign (hs : Setting Γ D Φ c) {n : Nat} (ih : Sound Γ D Φ c n) : ∀ {L I S ρ w op lhs rhs loop ret I'},
    Checked (Γ.enter L) ret (.assign op lhs rhs) → Flow (Γ.enter L) D loop I (.assign op lhs rhs) I' →
    WorldTy Γ Φ S I w → LocalsTy (Γ.enter L) Φ S I w.heap ρ →
    Good (execAssign c (n + 1) op lhs rhs ρ w) fun r => ∃ S', Later S w.heap S' r.2.heap ∧ WorldTy Γ Φ S' I' r.2 ∧ LocalsTy (Γ.enter L) Φ S' I' r.2.heap r.1 := by
  intro L I S ρ w op lhs rhs loop ret I' hck hfl hw hl
  cases hfl with
  | declare h1 h2 =>
    cases hck with
    | declare k1 k2 _ => exact store_var hs (.inr (.inl rfl)) h2 k1 (.inl rfl) hl (ih.rhs (.inl ⟨rfl, k2⟩) h1 hw hl)
    | assign k1 => simp [compound] at k1
  | assign h1 h2 =>
    cases hck with
    | assign _ k1 k2 k3 =>
      cases k1 with
      | id k1 => exact store_var hs (.inl rfl) h2 k1 (.inr k3) hl (ih.rhs (.inl ⟨rfl, k2⟩) h1 hw hl)
  | field h1 h2 =>
    cases hck with
    | assign _ k1 k2 k3 => exact store_field hs ih (.inl rfl) k1 k3 h1 hl (ih.rhs (.inl ⟨rfl, k2⟩) h2 hw hl)
  | elem h1 h2 h3 h4 h5 h6 h7 h8 h9 =>
    exact store_elem hs ih (.inl rfl) h4 h5 h1 h2 h7 h8 h9 hw hl fun a b => ih.rhs (.inl ⟨rfl, h6⟩) h3 a b
  | compound h1 h2 h3 h4 h5 h6 h7 h8 =>
    have hop : op = .equal ∨ op = .declare ∨ (Spec.compound op).isSome = true := by simp [h1]
    have hr := ih.rhs (.inr ⟨_, _, _, h1, h4, h2, h5, h6⟩) h3 hw hl
    rcases h8 with ⟨m, s, rfl, hsv⟩ | ⟨e, f, tag, rfl⟩
    · cases h4 with
      | id k1 =>
        refine (store_var hs hop hsv k1 (.inr h7) hl hr).mono ?_
        rintro r ⟨S', a, b, d⟩
        exact ⟨S', a, b.sub fun x hx => .inr hx, d.sub fun x hx => .inr hx⟩
    · rw [CoreE] at h2
      exact store_field hs ih hop h4 h7 h2 hl hr
  | compoundElem h1 h2 h3 h4 h5 h6 h7 h8 h9 h10 h11 =>
    have hop : op = .equal ∨ op = .declare ∨ (compound op).isSome = true := by simp [h1]
    have hc := h2
    rw [CoreE] at h2
    exact store_elem hs ih hop h4 h5 h2.1 h2.2.1 h9 h10 h11 hw hl fun a b => ih.rhs (.inr ⟨_, _, _, h1, h6, hc, h7, h8⟩) h3 a b
  | const =>
    unfold execAssign
    rw [if_pos rfl]
    exact Good.ok ⟨S, .refl _ _, hw, hl⟩

theorem SPost.later {L : Int → Option Tag} {loop : Bool} {ret : Option Tag} {I I' : VarSym → Prop} {S S' : ObjTypes} {h h' : Heap}
    {r : Outcome × Vars × World} (l : Later S h S' h') (k : SPost Γ Φ L loop ret I I' S' h' r) : SPost Γ Φ L loop ret I I' S h r := by
  obtain ⟨S2, a, b⟩ := k
  exact ⟨S2, l.trans a, b⟩

/-- Fewer variables count as initialized. -/
theorem SPost.sub {L : Int → Option Tag} {loop : Bool} {ret : Option Tag} {I I' J J' : VarSym → Prop} {S : ObjTypes} {h : Heap}
    {r : Outcome × Vars × World} (k1 : ∀ x, J x → I x) (k2 : ∀ x, J' x → I' x) (k : SPost Γ Φ L loop ret I I' S h r) :
    SPost Γ Φ L loop ret J J' S h r := by
  obtain ⟨S2, a, b1, b2, b3, b4⟩ := k
  exact ⟨S2, a, b1.sub k1, b2.sub k1, fun e => ⟨(b3 e).1.sub k2, (b3 e).2.sub k2⟩, b4⟩

theorem SPost.normal {L : Int → Option Tag} {loop : Bool} {ret : Option Tag} {I I' : VarSym → Prop} {S S' : ObjTypes} {h : Heap} {ρ : Vars} {w : World}
    (k : ∀ x, I x → I' x) (l : Later S h S' w.heap) (hw : WorldTy Γ Φ S' I' w) (hl : LocalsTy (Γ.enter L) Φ S' I' w.heap ρ) :
    SPost Γ Φ L loop ret I I' S h (.normal, ρ, w) :=
  ⟨S', l, hw.sub k, hl.sub k, fun _ => ⟨hw, hl⟩, fun e => by simp at e, fun v e => by simp at e⟩

theorem SPost.stop {L : Int → Option Tag} {loop loop' : Bool} {ret : Option Tag} {I I' J : VarSym → Prop} {S : ObjTypes} {h : Heap} {o : Outcome} {ρ : Vars}
    {w : World} (ho : o ≠ .normal) (hb : o = .brk ∨ o = .cont → loop = true → loop' = true) (k : SPost Γ Φ L loop ret I I' S h (o, ρ, w)) :
    SPost Γ Φ L loop' ret I J S h (o, ρ, w) := by
  obtain ⟨S2, a, b1, b2, b3, b4, b5⟩ := k
  exact ⟨S2, a, b1, b2, fun e => (ho e).elim, fun e => hb e (b4 e), b5⟩

theorem sound_ss {n : Nat} (ih : Sound Γ D Φ c n) : ∀ {L I S ρ w ss loop ret I'}, (∀ s ∈ ss, Checked (Γ.enter L) ret s) →
    Flow (Γ.enter L) D loop I (.block ss) I' → WorldTy Γ Φ S I w → LocalsTy (Γ.enter L) Φ S I w.heap ρ →
    Good (execSs c (n + 1) ss ρ w) (SPost Γ Φ L loop ret I I' S w.heap) := by
  intro L I S ρ w ss loop ret I' hck hfl hw hl
  cases hfl with
  | nil =>
    unfold execSs
    exact Good.ok (.normal (fun _ h => h) (.refl _ _) hw hl)
  | cons h1 h2 =>
    rw [execSs]
    refine (ih.s (hck _ (List.mem_cons_self ..)) h1 hw hl).bind ?_
    rintro ⟨o, ρ1, w1⟩ k
    by_cases ho : o = .normal
    · subst ho
      obtain ⟨S1, l1, -, -, k1, -⟩ := k
      exact (ih.ss (fun s m => hck s (List.mem_cons_of_mem _ m)) h2 (k1 rfl).1 (k1 rfl).2).mono fun r k => (k.later l1).sub h1.mono fun _ h => h
    · cases o with
      | normal => exact (ho rfl).elim
      | _ => exact Good.ok (k.stop ho fun _ h => h)

theorem sound_loop (hs : Setting Γ D Φ c) {n : Nat} (ih : Sound Γ D Φ c n) : ∀ {L I S ρ w cond step body loop ret I₁},
    HasType (Γ.enter L) cond .bool → CoreE (Γ.enter L) D I cond →
    Checked (Γ.enter L) ret body → Flow (Γ.enter L) D true I body I₁ →
    (∀ s, step = some s → Checked (Γ.enter L) ret s ∧ ∃ I₂, Flow (Γ.enter L) D false I s I₂) →
    WorldTy Γ Φ S I w → LocalsTy (Γ.enter L) Φ S I w.heap ρ →
    Good (execLoop c (n + 1) cond step body ρ w) (SPost Γ Φ L loop ret I I S w.heap) := by
  intro L I S ρ w cond step body loop ret I₁ h1 h2 h3 h4 h5 hw hl
  rw [execLoop]
  refine (ih.e h1 h2 hw hl).bind ?_
  rintro ⟨v, w1⟩ ⟨S1, l1, hw1, b, rfl⟩
  cases b with
  | false => exact Good.ok (.normal (fun _ h => h) l1 hw1 (hl.later hs.mono l1))
  | true =>
    refine (ih.s h3 h4 hw1 (hl.later hs.mono l1)).bind ?_
    rintro ⟨o, ρ2, w2⟩ k
    have hk := k
    obtain ⟨S2, l2, hw2, hl2, -⟩ := hk
    have l12 := l1.trans l2
    have next : Good (match step with
        | none => execLoop c n cond step body ρ2 w2
        | some s => do
          let (o, ρ, w) ← execS c n s ρ2 w2
          match o with
          | .normal => execLoop c n cond step body ρ w
          | .ret v => .ok (.ret v, ρ, w)
          | _ => confused) (SPost Γ Φ L loop ret I I S w.heap) := by
      cases step with
      | none => exact (ih.loop h1 h2 h3 h4 h5 hw2 hl2).mono fun r k => k.later l12
      | some s =>
        obtain ⟨g1, I2, g2⟩ := h5 s rfl
        refine (ih.s g1 g2 hw2 hl2).bind ?_
        rintro ⟨o, ρ3, w3⟩ k
        cases o with
        | normal =>
          obtain ⟨S3, l3, hw3, hl3, -⟩ := k
          exact (ih.loop h1 h2 h3 h4 h5 hw3 hl3).mono fun r k => k.later (l12.trans l3)
        | ret v => exact Good.ok ((k.later l12).stop (by simp) (by simp))
        | brk =>
          obtain ⟨_, _, _, _, _, hb, _⟩ := k
          exact absurd (hb (.inl rfl)) (by simp)
        | cont =>
          obtain ⟨_, _, _, _, _, hb, _⟩ := k
          exact absurd (hb (.inr rfl)) (by simp)
    cases o with
    | normal => exact next
    | cont => exact next
    | brk => exact Good.ok (.normal (fun _ h => h) l12 hw2 hl2)
    | ret v => exact Good.ok ((k.later l1).stop (by simp) (by simp))

theorem sound_s (hs : Setting Γ D Φ c) {n : Nat} (ih : Sound Γ D Φ c n) : ∀ {L I S ρ w s loop ret I'}, Checked (Γ.enter L) ret s →
    Flow (Γ.enter L) D loop I s I' → WorldTy Γ Φ S I w → LocalsTy (Γ.enter L) Φ S I w.heap ρ →
    Good (execS c (n + 1) s ρ w) (SPost Γ Φ L loop ret I I' S w.heap) := by
  intro L I S ρ w s loop ret I' hck hfl hw hl
  have asg : ∀ {op lhs rhs}, s = .assign op lhs rhs → Good (execS c (n + 1) s ρ w) (SPost Γ Φ L loop ret I I' S w.heap) := by
    rintro op lhs rhs rfl
    rw [execS]
    refine (ih.assign hck hfl hw hl).bind ?_
    rintro ⟨ρ1, w1⟩ ⟨S1, l1, hw1, hl1⟩
    exact Good.ok (.normal hfl.mono l1 hw1 hl1)
  cases hck with
  | node h =>
    cases hfl with
    | node k => rw [execS]; exact ih.s h k hw hl
  | @call _ _ m args _ h =>
    cases hfl with
    | call k =>
      cases h with
      | @call _ f sig _ ts h1 h2 h3 h4 h5 =>
      rw [CoreE] at k
      obtain ⟨hc1, f', sig', e1, har, hrd⟩ := k
      rw [h1] at e1
      cases e1
      rw [execS]
      refine (ih.es h2 h3 hc1 hw hl).bind ?_
      rintro ⟨vs, w0⟩ ⟨S0, l0, hw0, k0⟩
      have hf : c.globals.funcs m = some f := by
        rw [hs.funcs]
        rw [show Γ.func m = some (f, sig) from h1]
        rfl
      simp only [hf]
      refine ((ih.takes h1 hrd ⟨by rw [h2]; exact har, h5⟩ k0 hw0).mono fun _ k => k.later l0).bind ?_
      rintro ⟨v, w1⟩ ⟨S1, l1, hw1, -⟩
      exact Good.ok (.normal (fun _ h => h) l1 hw1 (hl.later hs.mono l1))
  | block h => rw [execS]; exact ih.ss h hfl hw hl
  | declare => exact asg rfl
  | assign => exact asg rfl
  | other => exact asg rfl
  | proc =>
    cases hfl
    rw [execS]
    exact Good.ok (.normal (fun _ h => h) (.refl _ _) hw hl)
  | ifThen h1 h2 =>
    cases hfl with
    | ifThen k1 k2 =>
      rw [execS]
      refine (ih.e h1 k1 hw hl).bind ?_
      rintro ⟨v, w1⟩ ⟨S1, l1, hw1, b, rfl⟩
      cases b with
      | true => exact (ih.s h2 k2 hw1 (hl.later hs.mono l1)).mono fun r k => (k.later l1).sub (fun _ h => h) k2.mono
      | false => exact Good.ok (.normal (fun _ h => h) l1 hw1 (hl.later hs.mono l1))
  | ifElse h1 h2 h3 =>
    cases hfl with
    | ifElse k1 k2 k3 =>
      rw [execS]
      refine (ih.e h1 k1 hw hl).bind ?_
      rintro ⟨v, w1⟩ ⟨S1, l1, hw1, b, rfl⟩
      cases b with
      | true => exact (ih.s h2 k2 hw1 (hl.later hs.mono l1)).mono fun r k => (k.later l1).sub (fun _ h => h) fun _ h => h.1
      | false => exact (ih.s h3 k3 hw1 (hl.later hs.mono l1)).mono fun r k => (k.later l1).sub (fun _ h => h) fun _ h => h.2
  | «while» h1 h2 =>
    cases hfl with
    | «while» k1 k2 =>
      rw [execS]
      exact ih.loop h1 k1 h2 k2 (by simp) hw hl
  | «for» h1 h2 h3 h4 =>
    cases hfl with
    | «for» k1 k2 k3 k4 =>
      rw [execS]
      refine (ih.s h1 k1 hw hl).bind ?_
      rintro ⟨o, ρ1, w1⟩ k
      cases o with
      | normal =>
        obtain ⟨S1, l1, -, -, e1, -⟩ := k
        obtain ⟨hw1, hl1⟩ := e1 rfl
        refine (ih.loop h2 k2 h4 k3 (fun s e => ?_) hw1 hl1).mono fun r k => (k.later l1).sub k1.mono fun _ h => h
        cases e
        exact ⟨h3, _, k4⟩
      | ret v => exact Good.ok (k.stop (by simp) (by simp))
      | brk =>
        obtain ⟨_, _, _, _, _, hb, _⟩ := k
        exact absurd (hb (.inl rfl)) (by simp)
      | cont =>
        obtain ⟨_, _, _, _, _, hb, _⟩ := k
        exact absurd (hb (.inr rfl)) (by simp)
  | retVoid =>
    rw [execS]
    refine Good.ok ⟨S, .refl _ _, hw, hl, by simp, by simp, fun v e => ?_⟩
    cases e
    exact ⟨_, rfl, trivial⟩
  | ret h1 h2 =>
    cases hfl with
    | ret k =>
      rw [execS]
      refine (ih.e h1 (k _ rfl) hw hl).bind ?_
      rintro ⟨v, w1⟩ ⟨S1, l1, hw1, k1⟩
      refine Good.ok ⟨S1, l1, hw1, hl.later hs.mono l1, by simp, by simp, fun v e => ?_⟩
      cases e
      exact ⟨_, rfl, k1.assign h2⟩
  | brk =>
    cases hfl
    rw [execS]
    exact Good.ok ⟨S, .refl _ _, hw, hl, by simp, by simp, by simp⟩
  | cont =>
    cases hfl
    rw [execS]
    exact Good.ok ⟨S, .refl _ _, hw, hl, by simp, by simp, by simp⟩
  | use =>
    cases hfl
    rw [execS]
    exact Good.ok (.normal (fun _ h => h) (.refl _ _) hw hl)

theorem sound_all (hs : Setting Γ D Φ c) : ∀ n, Sound Γ D Φ c n
  | 0 => by
    constructor <;> intros
    · unfold evalE; trivial
    · unfold evalList; trivial
    · unfold evalNamed; trivial
    · unfold call; trivial
    · unfold evalRhs; trivial
    · unfold execAssign; trivial
    · unfold execS; trivial
    · unfold execSs; trivial
    · unfold execLoop; trivial
  | n + 1 =>
    have ih := sound_all hs n
    { e := sound_e hs ih, es := sound_es hs ih, named := sound_named hs ih, call := sound_call hs ih, rhs := sound_rhs hs ih,
      assign := sound_assign hs ih, s := sound_s hs ih, ss := sound_ss ih, loop := sound_loop hs ih }

end Tiny.Spec
