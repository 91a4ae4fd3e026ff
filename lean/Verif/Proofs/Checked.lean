import Verif.Spec.Types

/-!
# Checking in order and checking as a whole

If every variable is declared once, the rules applied in order (`Checks`) give what the rules say with the final
types (`Checked`).
-/

namespace Tiny.Spec

/-- The second gives types to more variables. -/
structure TyLe (Γ Γ' : TyEnv) : Prop where
  var : ∀ s t, Γ.var s = some t → Γ'.var s = some t
  func : Γ'.func = Γ.func
  fields : Γ'.fields = Γ.fields
  hidden : Γ'.hidden = Γ.hidden
  get : Γ'.getIndex = Γ.getIndex
  set : Γ'.setIndex = Γ.setIndex
  body : ∀ i L r, Γ.body i = some (L, r) → ∃ L', Γ'.body i = some (L', r) ∧ ∀ j t, L j = some t → L' j = some t
  none : ∀ i, Γ.body i = none → Γ'.body i = none

theorem TyLe.refl (Γ : TyEnv) : TyLe Γ Γ :=
  ⟨fun _ _ h => h, rfl, rfl, rfl, rfl, rfl, fun _ L _ h => ⟨L, h, fun _ _ h => h⟩, fun _ h => h⟩

theorem TyLe.trans {Γ Δ Θ : TyEnv} (h : TyLe Γ Δ) (k : TyLe Δ Θ) : TyLe Γ Θ where
  var := fun s t hs => k.var s t (h.var s t hs)
  func := k.func.trans h.func
  fields := k.fields.trans h.fields
  hidden := k.hidden.trans h.hidden
  get := k.get.trans h.get
  set := k.set.trans h.set
  body := fun i L r hb => by
    obtain ⟨L', h1, h2⟩ := h.body i L r hb
    obtain ⟨L'', h3, h4⟩ := k.body i L' r h1
    exact ⟨L'', h3, fun j t hj => h4 j t (h2 j t hj)⟩
  none := fun i hi => k.none i (h.none i hi)

theorem TyLe.at {Γ Γ' : TyEnv} (h : TyLe Γ Γ') (cur : Option Nat) : TyLe (Γ.at cur) (Γ'.at cur) where
  var := by
    intro s t hs
    cases s with
    | glob i => exact h.var _ _ hs
    | const c => exact h.var _ _ hs
    | loc i =>
      simp only [TyEnv.at, TyEnv.enter] at hs ⊢
      cases cur with
      | none => simp at hs
      | some k =>
        simp only [Option.bind_some] at hs ⊢
        cases hb : Γ.body k with
        | none => rw [hb] at hs; simp at hs
        | some v =>
          obtain ⟨L, r⟩ := v
          rw [hb] at hs
          obtain ⟨L', h1, h2⟩ := h.body k L r hb
          rw [h1]
          exact h2 i t hs
  func := h.func
  fields := h.fields
  hidden := h.hidden
  get := h.get
  set := h.set
  body := h.body
  none := h.none

theorem TyLe.tag {Γ Γ' : TyEnv} (h : TyLe Γ Γ') (n : Name) : Γ'.structTag n = Γ.structTag n := by
  unfold TyEnv.structTag
  rw [h.hidden]

theorem HasType.mono {Γ Γ' : TyEnv} (h : TyLe Γ Γ') {e : Expr} {t : Tag} (he : HasType Γ e t) : HasType Γ' e t := by
  induction he with
  | null => exact .null
  | bool => exact .bool
  | int => exact .int
  | char => exact .char
  | float => exact .float
  | str => exact .str
  | id hv => exact .id (h.var _ _ hv)
  | paren _ ih => exact .paren ih
  | bin _ _ ho ih1 ih2 => exact .bin ih1 ih2 ho
  | un _ ho ih => exact .un ih ho
  | call h1 h2 _ h4 h5 ih => exact .call (by rw [h.func]; exact h1) h2 ih h4 h5
  | dot _ h1 h2 ih =>
    rw [← h.tag] at ih ⊢
    exact .dot ih (by rw [h.fields]; exact h1) h2
  | index _ _ h1 h2 ih1 ih2 => exact .index ih1 ih2 (by rw [h.func, h.get]; exact h1) (by rw [h.func, h.set]; exact h2)
  | ctor h1 h2 _ h4 h5 ih => rw [← h.tag]; exact .ctor (by rw [h.fields]; exact h1) h2 ih h4 h5
  | ctorNamed h1 h2 h3 _ h4 h5 h6 ih => rw [← h.tag]; exact .ctorNamed (by rw [h.fields]; exact h1) h2 h3 ih h4 h5 h6
  | cast _ h1 ih => exact .cast ih h1
  | ite _ _ _ ih1 ih2 ih3 => exact .ite ih1 ih2 ih3

theorem TyLe.result {Γ Γ' : TyEnv} (h : TyLe Γ Γ') (cur : Option Nat) : Γ'.result cur = Γ.result cur := by
  unfold TyEnv.result
  cases cur with
  | none => rfl
  | some k =>
    simp only [Option.bind_some]
    cases hb : Γ.body k with
    | none => rw [h.none k hb]
    | some v =>
      obtain ⟨L, r⟩ := v
      obtain ⟨L', h1, _⟩ := h.body k L r hb
      rw [h1]; rfl

/-- The function a declared variable belongs to. -/
def owner (cur : Option Nat) : VarSym → Option Nat
  | .loc _ => cur
  | _ => none

theorem decls_declare {cur : Option Nat} {n : Name} {s : VarSym} {r : Expr} :
    decls cur (.assign .declare (.id n (some s)) r) = [(owner cur s, s)] := by
  cases s <;> simp [decls, owner]

theorem untyped_owner {Γ : TyEnv} {cur : Option Nat} {s : VarSym} (h : Γ.Untyped (owner cur s, s)) :
    (∃ i, s = .glob i ∧ Γ.var (.glob i) = none) ∨
    ∃ k i L r, s = .loc i ∧ cur = some k ∧ Γ.body k = some (L, r) ∧ L i = none := by
  generalize hd : (owner cur s, s) = d at h
  cases h with
  | glob hv => obtain ⟨_, rfl⟩ := Prod.mk.inj hd; exact .inl ⟨_, rfl, hv⟩
  | loc hb hL =>
    obtain ⟨h1, rfl⟩ := Prod.mk.inj hd
    exact .inr ⟨_, _, _, _, rfl, h1, hb, hL⟩

theorem TyLe.declare {Γ : TyEnv} {cur : Option Nat} {s : VarSym} {t : Tag} (h : Γ.Untyped (owner cur s, s)) :
    TyLe Γ (Γ.declare cur s t) ∧ ((Γ.declare cur s t).at cur).var s = some t := by
  rcases untyped_owner h with ⟨i, rfl, hv⟩ | ⟨k, i, L, r, rfl, rfl, hb, hL⟩
  · refine ⟨⟨?_, rfl, rfl, rfl, rfl, rfl, fun _ L _ h => ⟨L, h, fun _ _ h => h⟩, fun _ h => h⟩, ?_⟩
    · intro s t' hs
      simp only [TyEnv.declare]
      rw [if_neg]
      · exact hs
      · rintro rfl; rw [hv] at hs; cases hs
    · simp [TyEnv.declare, TyEnv.at, TyEnv.enter]
  · refine ⟨⟨fun _ _ h => h, rfl, rfl, rfl, rfl, rfl, ?_, ?_⟩, ?_⟩
    · intro i' L' r' hb'
      simp only [TyEnv.declare]
      by_cases hk : k = i'
      · subst hk
        rw [if_pos rfl, hb']
        rw [hb] at hb'
        cases hb'
        refine ⟨_, rfl, fun j t' hj => ?_⟩
        simp only
        rw [if_neg (by rintro rfl; rw [hL] at hj; cases hj)]
        exact hj
      · rw [if_neg (by simpa using hk)]
        exact ⟨L', hb', fun _ _ h => h⟩
    · intro i' hn
      simp only [TyEnv.declare]
      split
      · rw [hn]; rfl
      · exact hn
    · simp [TyEnv.declare, TyEnv.at, TyEnv.enter, hb]

theorem untyped_declare {Γ : TyEnv} {cur : Option Nat} {s : VarSym} {t : Tag} {d : Option Nat × VarSym}
    (hd : d ≠ (owner cur s, s)) (h : Γ.Untyped d) : (Γ.declare cur s t).Untyped d := by
  cases h with
  | @glob i hv =>
    refine .glob ?_
    cases s with
    | glob j =>
      simp only [TyEnv.declare]
      rw [if_neg]
      · exact hv
      · intro e; cases e; exact hd rfl
    | loc j => exact hv
    | const c => exact hv
  | @loc k i L r hb hL =>
    cases s with
    | glob j => exact .loc hb hL
    | const c => exact .loc hb hL
    | loc j =>
      by_cases hk : cur = some k
      · subst hk
        refine .loc (L := fun j' => if j' = j then some t else L j') (r := r) ?_ ?_
        · simp [TyEnv.declare, hb]
        · show (if i = j then some t else L i) = none
          rw [if_neg]
          · exact hL
          · rintro rfl; exact hd rfl
      · refine .loc (L := L) (r := r) ?_ hL
        simp only [TyEnv.declare]
        rw [if_neg hk]; exact hb

/-- Other variables stay untyped. -/
theorem Checks.untyped {Γ Γ' : TyEnv} {cur : Option Nat} {s : Stmt} (h : Checks Γ cur s Γ') {d : Option Nat × VarSym}
    (hd : d ∉ decls cur s) (hu : Γ.Untyped d) : Γ'.Untyped d := by
  induction h with
  | node _ ih => rw [decls] at hd; exact ih hd hu
  | call => exact hu
  | nil => exact hu
  | cons _ _ ih1 ih2 =>
    rw [decls, declsL, List.mem_append, not_or] at hd
    exact ih2 (by rw [decls]; exact hd.2) (ih1 hd.1 hu)
  | declare =>
    rw [decls_declare] at hd
    exact untyped_declare (by simpa using hd) hu
  | assign => exact hu
  | other => exact hu
  | proc _ _ ih => rw [decls] at hd; exact ih hd hu
  | ifThen _ _ ih => rw [decls] at hd; exact ih hd hu
  | ifElse _ _ _ ih1 ih2 =>
    rw [decls, List.mem_append, not_or] at hd
    exact ih2 hd.2 (ih1 hd.1 hu)
  | «while» _ _ ih => rw [decls] at hd; exact ih hd hu
  | «for» _ _ _ _ ih1 ih2 ih3 =>
    rw [decls, List.mem_append, List.mem_append, not_or, not_or] at hd
    exact ih3 hd.2.2 (ih2 hd.2.1 (ih1 hd.1 hu))
  | retVoid => exact hu
  | ret => exact hu
  | brk => exact hu
  | cont => exact hu
  | use => exact hu

theorem Checks.fresh {Γ Γ' : TyEnv} {cur : Option Nat} {s : Stmt} (h : Checks Γ cur s Γ') {l : List (Option Nat × VarSym)}
    (hn : (decls cur s ++ l).Nodup) (hu : ∀ d ∈ l, Γ.Untyped d) : ∀ d ∈ l, Γ'.Untyped d := by
  intro d hd
  refine h.untyped (fun hm => ?_) (hu d hd)
  exact (List.nodup_append.1 hn).2.2 d hm d hd rfl

/-- **The rules in order give the rules as a whole.** -/
theorem Checks.checked {Γ Γ' : TyEnv} {cur : Option Nat} {s : Stmt} (h : Checks Γ cur s Γ') (hf : Fresh Γ cur s) :
    TyLe Γ Γ' ∧ ∀ Γ'', TyLe Γ' Γ'' → Checked (Γ''.at cur) (Γ''.result cur) s := by
  induction h with
  | node _ ih =>
    unfold Fresh at hf; rw [decls] at hf
    exact ⟨(ih hf).1, fun G hG => .node ((ih hf).2 G hG)⟩
  | call h => exact ⟨.refl _, fun G hG => .call (h.mono (hG.at _))⟩
  | nil => exact ⟨.refl _, fun G hG => .block (by simp)⟩
  | cons h1 h2 ih1 ih2 =>
    obtain ⟨hn, hu⟩ := hf
    rw [decls, declsL] at hn hu
    have q1 := ih1 ⟨(List.nodup_append.1 hn).1, fun d hd => hu d (by simp [hd])⟩
    have q2 := ih2 ⟨by rw [decls]; exact (List.nodup_append.1 hn).2.1,
      by rw [decls]; exact h1.fresh hn fun d hd => hu d (by simp [hd])⟩
    refine ⟨q1.1.trans q2.1, fun G hG => .block ?_⟩
    intro s hs
    rcases List.mem_cons.1 hs with rfl | hs
    · exact q1.2 G (q2.1.trans hG)
    · have := q2.2 G hG
      generalize hr : TyEnv.result G _ = ret at this
      cases this with
      | block hb => exact hb s hs
  | @declare Γ cur n s r t hc hr hv =>
    obtain ⟨_, hu⟩ := hf
    rw [decls_declare] at hu
    have hu := hu _ (List.mem_singleton.2 rfl)
    obtain ⟨h1, h2⟩ := TyLe.declare (t := t) hu
    exact ⟨h1, fun G hG => .declare ((hG.at cur).var _ _ h2) (hr.mono ((h1.trans hG).at _)) hv⟩
  | assign h1 h2 h3 h4 => exact ⟨.refl _, fun G hG => .assign h1 (h2.mono (hG.at _)) (h3.mono (hG.at _)) h4⟩
  | other h1 h2 h3 => exact ⟨.refl _, fun G hG => .other h1 h2 (h3.mono (hG.at _))⟩
  | @proc Γ cur i na nl b v Γ' hb h ih =>
    unfold Fresh at hf; rw [decls] at hf
    obtain ⟨q1, q2⟩ := ih hf
    refine ⟨q1, fun G hG => ?_⟩
    obtain ⟨L, r⟩ := v
    obtain ⟨L', h3, _⟩ := (q1.trans hG).body i L r hb
    refine .proc (L := L') (r := r) h3 ?_
    have := q2 G hG
    have e1 : G.at (some i) = (G.at cur).enter L' := by
      unfold TyEnv.at TyEnv.enter
      simp only [Option.bind_some, h3]
      congr 1
      funext s
      cases s <;> rfl
    rw [e1] at this
    simpa [TyEnv.result, h3] using this
  | ifThen h1 h2 ih =>
    unfold Fresh at hf; rw [decls] at hf
    exact ⟨(ih hf).1, fun G hG => .ifThen (h1.mono (((ih hf).1.trans hG).at _)) ((ih hf).2 G hG)⟩
  | ifElse hc h1 h2 ih1 ih2 =>
    obtain ⟨hn, hu⟩ := hf
    rw [decls] at hn hu
    have q1 := ih1 ⟨(List.nodup_append.1 hn).1, fun d hd => hu d (by simp [hd])⟩
    have q2 := ih2 ⟨(List.nodup_append.1 hn).2.1, h1.fresh hn fun d hd => hu d (by simp [hd])⟩
    exact ⟨q1.1.trans q2.1, fun G hG => .ifElse (hc.mono (((q1.1.trans q2.1).trans hG).at _))
      (q1.2 G (q2.1.trans hG)) (q2.2 G hG)⟩
  | «while» h1 h2 ih =>
    unfold Fresh at hf; rw [decls] at hf
    exact ⟨(ih hf).1, fun G hG => .while (h1.mono (((ih hf).1.trans hG).at _)) ((ih hf).2 G hG)⟩
  | «for» h1 hc h2 h3 ih1 ih2 ih3 =>
    obtain ⟨hn, hu⟩ := hf
    rw [decls] at hn hu
    have q1 := ih1 ⟨(List.nodup_append.1 hn).1, fun d hd => hu d (by simp [hd])⟩
    have hn2 := (List.nodup_append.1 hn).2.1
    have hu2 := h1.fresh hn fun d hd => hu d (List.mem_append_right _ hd)
    have q2 := ih2 ⟨(List.nodup_append.1 hn2).1, fun d hd => hu2 d (by simp [hd])⟩
    have q3 := ih3 ⟨(List.nodup_append.1 hn2).2.1, h2.fresh hn2 fun d hd => hu2 d (by simp [hd])⟩
    exact ⟨(q1.1.trans q2.1).trans q3.1, fun G hG => .for (q1.2 G (q2.1.trans (q3.1.trans hG)))
      (hc.mono ((q2.1.trans (q3.1.trans hG)).at _)) (q2.2 G (q3.1.trans hG)) (q3.2 G hG)⟩
  | retVoid h => exact ⟨.refl _, fun G hG => by rw [hG.result, h]; exact .retVoid⟩
  | ret h h1 h2 => exact ⟨.refl _, fun G hG => by rw [hG.result, h]; exact .ret (h1.mono (hG.at _)) h2⟩
  | brk => exact ⟨.refl _, fun G hG => .brk⟩
  | cont => exact ⟨.refl _, fun G hG => .cont⟩
  | use => exact ⟨.refl _, fun G hG => .use⟩

end Tiny.Spec
