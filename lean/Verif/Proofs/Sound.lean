import Verif.Spec.Sound

/-!
# Lemmas for C37: values keep their types
-/

namespace Tiny.Spec


/-! ## Results -/

theorem Good.ok {α : Type} {a : α} {P : α → Prop} (h : P a) : Good (.ok a) P := h

theorem Good.mono {α : Type} {r : Res α} {P Q : α → Prop} (h : Good r P) (k : ∀ a, P a → Q a) : Good r Q := by
  cases r <;> first | exact k _ h | exact h

theorem Good.bind {α β : Type} {r : Res α} {f : α → Res β} {P : α → Prop} {Q : β → Prop} (h : Good r P)
    (k : ∀ a, P a → Good (f a) Q) : Good (r >>= f) Q := by
  cases r with
  | ok a => exact k a h
  | abort => exact h.elim
  | limit => exact h.elim
  | ub => trivial
  | timeout => trivial

theorem Good.ofOption {α : Type} (x : Option α) {P : α → Prop} (h : ∀ a, x = some a → P a) : Good (Tiny.Spec.ofOption x) P := by
  cases x with
  | none => trivial
  | some a => exact h a rfl

/-! ## Later -/

theorem Later.refl (S : ObjTypes) (h : Heap) : Later S h S h := ⟨fun _ _ h => h, fun _ h => h, fun _ _ _ h => h, fun _ _ _ _ h => h⟩

theorem Later.trans {S S1 S2 : ObjTypes} {h h1 h2 : Heap} (a : Later S h S1 h1) (b : Later S1 h1 S2 h2) :
    Later S h S2 h2 :=
  ⟨fun o n e => b.types o n (a.types o n e), fun o e => b.list o (a.list o e),
    fun o x e k => b.strs o x (a.list o e) (a.strs o x e k), fun o x y e k => b.natives o x y (a.list o e) (a.natives o x y e k)⟩

theorem Sane.mono {S S' : ObjTypes} {h h' : Heap} (l : Later S h S' h') {v : Value} (hv : Sane S h v) : Sane S' h' v := by
  cases v with
  | str o =>
    obtain ⟨a, b, c⟩ := hv
    exact ⟨l.list o a, b, l.strs o b a c⟩
  | native o => exact l.list o hv
  | struct o =>
    obtain ⟨n, e⟩ := hv
    exact ⟨n, l.types o n e⟩
  | _ => trivial

theorem ValTy.mono {Φ : HostTypes} (hΦ : HostMono Φ) {S S' : ObjTypes} {h h' : Heap} (l : Later S h S' h') {v : Value} :
    ∀ {t : Tag}, ValTy Φ S h v t → ValTy Φ S' h' v t
  | .void, k => Sane.mono (v := v) l k
  | .any, k => Sane.mono (v := v) l k
  | .bool, k => k
  | .int, k => k
  | .float, k => k
  | .str, k => by
    rcases k with k | ⟨o, b, k1, k2, k3⟩
    · exact .inl k
    · exact .inr ⟨o, b, k1, l.list o k2, l.strs o b k2 k3⟩
  | .named n, k => ⟨k.1.mono l, hΦ _ _ _ _ _ _ k.2 l⟩
  | .shadowed n, k => by
    obtain ⟨o, a, b⟩ := k
    exact ⟨o, a, l.types o n b⟩
  | .nullable t, k => by
    rcases k with k | k
    · exact .inl k
    · exact .inr (ValTy.mono hΦ l k)

theorem ValTy.sane {Φ : HostTypes} {S : ObjTypes} {h : Heap} {v : Value} : ∀ {t : Tag}, ValTy Φ S h v t → Sane S h v
  | .void, k => k
  | .any, k => k
  | .bool, ⟨_, k⟩ => by subst k; trivial
  | .int, ⟨_, k⟩ => by subst k; trivial
  | .float, ⟨_, k⟩ => by subst k; trivial
  | .str, k => by
    rcases k with ⟨_, k⟩ | ⟨o, b, k, k2, k3⟩
    · subst k; trivial
    · subst k; exact ⟨k2, b, k3⟩
  | .named n, k => k.1
  | .shadowed n, ⟨o, k, k2⟩ => by subst k; exact ⟨n, k2⟩
  | .nullable t, k => by
    rcases k with k | k
    · subst k; trivial
    · exact ValTy.sane k

theorem ValTy.assign {Φ : HostTypes} {S : ObjTypes} {h : Heap} {v : Value} {t p : Tag} (a : Assignable t p)
    (k : ValTy Φ S h v t) : ValTy Φ S h v p := by
  induction a with
  | toAny _ => exact ValTy.sane (t := _) k
  | same => exact k
  | toNullable _ _ ih => exact .inr ih

theorem Sane.alive {S : ObjTypes} {h : Heap} {v : Value} (k : Sane S h v) : live h v = true := by
  cases v with
  | str o => simpa [live] using k.1
  | native o => simpa [live] using (show o ∈ h.list from k)
  | _ => rfl

/-! ## Operators -/

theorem equal_good {c : Ctx} {S : ObjTypes} {w : World} {a b : Value} (ha : Sane S w.heap a) (hb : Sane S w.heap b) :
    Good (equal c w a b) fun _ => True := by
  unfold equal
  rw [if_pos ⟨ha.alive, hb.alive⟩]
  trivial

theorem num_cases {Φ : HostTypes} {S : ObjTypes} {h : Heap} {v : Value} {t : Tag} (n : IsNum t) (k : ValTy Φ S h v t) :
    (t = .int ∧ ∃ i, v = .int i) ∨ t = .float ∧ ∃ f, v = .float f := by
  cases n
  · exact .inl ⟨rfl, k⟩
  · exact .inr ⟨rfl, k⟩

theorem arith_ints {fl : FloatOps} {op : Op} {fop : BitVec 64 → BitVec 64 → BitVec 64} {a b : BitVec 64} {Φ : HostTypes} {S : ObjTypes}
    {h : Heap} : Good (arith fl op fop (.int a) (.int b)) fun v => ValTy Φ S h v .int := by
  unfold arith
  exact (Good.ofOption _ (P := fun _ => True) fun _ _ => trivial).bind fun a _ => .ok ⟨_, rfl⟩

theorem bits_ints {op : Op} {a b : BitVec 64} {Φ : HostTypes} {S : ObjTypes} {h : Heap} :
    Good (bits op (.int a) (.int b)) fun v => ValTy Φ S h v .int := by
  unfold bits
  exact (Good.ofOption _ (P := fun _ => True) fun _ _ => trivial).bind fun a _ => .ok ⟨_, rfl⟩

theorem arith_floats {fl : FloatOps} {op : Op} {fop : BitVec 64 → BitVec 64 → BitVec 64} {a b : Value} {tl tr : Tag}
    {Φ : HostTypes} {S : ObjTypes} {h : Heap} (hl : IsNum tl) (hr : IsNum tr) (ha : ValTy Φ S h a tl) (hb : ValTy Φ S h b tr)
    (hn : ¬ (tl = .int ∧ tr = .int)) : Good (arith fl op fop a b) fun v => ValTy Φ S h v .float := by
  rcases num_cases hl ha with ⟨rfl, x, rfl⟩ | ⟨rfl, x, rfl⟩ <;> rcases num_cases hr hb with ⟨rfl, y, rfl⟩ | ⟨rfl, y, rfl⟩
  · exact (hn ⟨rfl, rfl⟩).elim
  all_goals exact .ok ⟨_, rfl⟩

theorem compare_good {fl : FloatOps} {iop : Int → Int → Bool} {fop : BitVec 64 → BitVec 64 → Bool} {a b : Value} {tl tr : Tag}
    {Φ : HostTypes} {S : ObjTypes} {h : Heap} (hl : IsNum tl) (hr : IsNum tr) (ha : ValTy Φ S h a tl) (hb : ValTy Φ S h b tr) :
    Good (compareNums fl iop fop a b) fun v => ValTy Φ S h v .bool := by
  rcases num_cases hl ha with ⟨rfl, x, rfl⟩ | ⟨rfl, x, rfl⟩ <;> rcases num_cases hr hb with ⟨rfl, y, rfl⟩ | ⟨rfl, y, rfl⟩
  all_goals exact .ok ⟨_, rfl⟩

theorem binary_good {c : Ctx} {Φ : HostTypes} {S : ObjTypes} {w : World} {op : Tok} {tl tr t : Tag} {a b : Value}
    (hb : BinTy op tl tr t) (h1 : op ≠ .logAnd) (h2 : op ≠ .logOr) (ha : ValTy Φ S w.heap a tl) (hb' : ValTy Φ S w.heap b tr) :
    Good (binary c w op a b) fun v => ValTy Φ S w.heap v t := by
  cases hb with
  | ints hop =>
    obtain ⟨x, rfl⟩ := ha
    obtain ⟨y, rfl⟩ := hb'
    simp only [List.mem_cons, List.not_mem_nil, or_false] at hop
    rcases hop with rfl | rfl | rfl | rfl <;> (unfold binary; exact arith_ints)
  | floats hop hl hr hn =>
    simp only [List.mem_cons, List.not_mem_nil, or_false] at hop
    rcases hop with rfl | rfl | rfl | rfl <;> (unfold binary; exact arith_floats hl hr ha hb' hn)
  | bits hop =>
    obtain ⟨x, rfl⟩ := ha
    obtain ⟨y, rfl⟩ := hb'
    simp only [List.mem_cons, List.not_mem_nil, or_false] at hop
    rcases hop with rfl | rfl | rfl | rfl | rfl <;> (unfold binary; exact bits_ints)
  | logic hop =>
    simp only [List.mem_cons, List.not_mem_nil, or_false] at hop
    rcases hop with rfl | rfl
    · exact (h1 rfl).elim
    · exact (h2 rfl).elim
  | order hop hl hr =>
    simp only [List.mem_cons, List.not_mem_nil, or_false] at hop
    rcases hop with rfl | rfl | rfl | rfl <;> (unfold binary; exact compare_good hl hr ha hb')
  | equality hop _ _ =>
    simp only [List.mem_cons, List.not_mem_nil, or_false] at hop
    rcases hop with rfl | rfl <;> exact (equal_good ha.sane hb'.sane).bind fun _ _ => .ok ⟨_, rfl⟩

theorem negate_good {c : Ctx} {Φ : HostTypes} {S : ObjTypes} {h : Heap} {t : Tag} {a : Value} (hn : IsNum t)
    (ha : ValTy Φ S h a t) : Good (negate c a) fun v => ValTy Φ S h v t := by
  unfold negate
  rcases num_cases hn ha with ⟨rfl, x, rfl⟩ | ⟨rfl, x, rfl⟩
  · exact arith_ints
  · exact .ok ⟨_, rfl⟩

theorem truth_good {Φ : HostTypes} {S : ObjTypes} {h : Heap} {a : Value} (ha : ValTy Φ S h a .bool) : Good (truth a) fun _ => True := by
  obtain ⟨b, rfl⟩ := ha
  trivial

/-! ## The world -/

theorem WorldTy.sub {Γ : TyEnv} {Φ : HostTypes} {S : ObjTypes} {I J : VarSym → Prop} {w : World} (h : WorldTy Γ Φ S I w)
    (k : ∀ x, J x → I x) : WorldTy Γ Φ S J w :=
  ⟨h.heap, fun i t e => by
    obtain ⟨v, a, b⟩ := h.globs i t e
    exact ⟨v, a, fun j => b (k _ j)⟩⟩

theorem LocalsTy.sub {Γ : TyEnv} {Φ : HostTypes} {S : ObjTypes} {I J : VarSym → Prop} {h : Heap} {ρ : Vars} (l : LocalsTy Γ Φ S I h ρ)
    (k : ∀ x, J x → I x) : LocalsTy Γ Φ S J h ρ := fun i t e => by
  obtain ⟨v, a, b⟩ := l i t e
  exact ⟨v, a, fun j => b (k _ j)⟩

theorem LocalsTy.later {Γ : TyEnv} {Φ : HostTypes} (hΦ : HostMono Φ) {S S' : ObjTypes} {I : VarSym → Prop} {h h' : Heap} {ρ : Vars}
    (l : LocalsTy Γ Φ S I h ρ) (k : Later S h S' h') : LocalsTy Γ Φ S' I h' ρ := fun i t e => by
  obtain ⟨v, a, b⟩ := l i t e
  exact ⟨v, a, fun j => (b j).mono hΦ k⟩

theorem WorldTy.enter {Γ : TyEnv} {Φ : HostTypes} {S : ObjTypes} {I : VarSym → Prop} {w : World} {L : Int → Option Tag} :
    WorldTy (Γ.enter L) Φ S I w ↔ WorldTy Γ Φ S I w :=
  ⟨fun h => ⟨⟨h.heap.fresh, h.heap.structs⟩, h.globs⟩, fun h => ⟨⟨h.heap.fresh, h.heap.structs⟩, h.globs⟩⟩

theorem structName_tag (Γ : TyEnv) (n : Name) : (Γ.structTag n).structName = some n := by
  unfold TyEnv.structTag
  split <;> rfl

/-- The values of a struct type. -/
theorem valTy_struct {Γ : TyEnv} {Φ : HostTypes} (hN : StructsMean Γ Φ) {n : Name} {fs : List (Name × Tag)} (hf : Γ.fields n = some fs)
    {S : ObjTypes} {h : Heap} {v : Value} : ValTy Φ S h v (Γ.structTag n) ↔ ∃ o, v = .struct o ∧ S o = some n := by
  unfold TyEnv.structTag
  cases hh : Γ.hidden n with
  | true => exact Iff.rfl
  | false =>
    refine ⟨fun k => (hN n fs hf hh S h v).1 k.2, fun k => ⟨?_, (hN n fs hf hh S h v).2 k⟩⟩
    obtain ⟨o, rfl, e⟩ := k
    exact ⟨n, e⟩

/-- Allocating a struct. -/
theorem alloc_good {Γ : TyEnv} {Φ : HostTypes} (hΦ : HostMono Φ) (hN : StructsMean Γ Φ) {S : ObjTypes} {I : VarSym → Prop} {w : World} (h : WorldTy Γ Φ S I w)
    {n : Name} {fs : List (Name × Tag)} {vs : List Value} (hf : Γ.fields n = some fs) (hl : vs.length = fs.length) (hne : fs ≠ [])
    (hv : ∀ (k : Nat) v f, vs[k]? = some v → fs[k]? = some f → ValTy Φ S w.heap v f.2) :
    Good (construct w fs.length vs) fun r => ∃ S', Later S w.heap S' r.2.heap ∧ WorldTy Γ Φ S' I r.2 ∧ ValTy Φ S' r.2.heap r.1 (Γ.structTag n) := by
  unfold construct
  rw [if_neg (by simp [hl]), if_neg (by simp [hne])]
  have hnew : ∀ o ∈ w.heap.list, o ≠ w.heap.next := fun o ho e => by
    have := h.heap.fresh o ho
    omega
  have lat : Later S w.heap (fun o => if o = w.heap.next then some n else S o) (w.heap.alloc (.struct vs)).2 := by
    refine ⟨fun o m e => ?_, fun o ho => ?_, fun o b ho e => ?_, fun o a p ho e => ?_⟩
    · have := (h.heap.structs o m e).1
      simp [hnew o this, e]
    · exact List.mem_cons_of_mem _ ho
    · simp [Heap.alloc, upd, hnew o ho, e]
    · simp [Heap.alloc, upd, hnew o ho, e]
  refine ⟨_, lat, ⟨⟨?_, ?_⟩, ?_⟩, (valTy_struct hN hf).2 ⟨_, rfl, ?_⟩⟩
  · intro o ho
    rcases List.mem_cons.1 ho with rfl | ho
    · exact Nat.lt_succ_self _
    · exact Nat.lt_succ_of_lt (h.heap.fresh o ho)
  · intro o m e
    by_cases ho : o = w.heap.next
    · rw [if_pos ho] at e
      cases e
      subst ho
      refine ⟨List.mem_cons_self .., fs, vs, hf, by simp [Heap.alloc, upd], hl, fun k v f h1 h2 => (hv k v f h1 h2).mono hΦ lat⟩
    · rw [if_neg ho] at e
      obtain ⟨a, fs', vs', b1, b2, b3, b4⟩ := h.heap.structs o m e
      exact ⟨List.mem_cons_of_mem _ a, fs', vs', b1, by simp [Heap.alloc, upd, ho, b2], b3, fun k v f h1 h2 => (b4 k v f h1 h2).mono hΦ lat⟩
  · intro i t e
    obtain ⟨v, a, b⟩ := h.globs i t e
    exact ⟨v, a, fun j => (b j).mono hΦ lat⟩
  · simp [Heap.alloc]

theorem idxOf_fieldType {fs : List (Name × Tag)} {field : Name} {t : Tag} (h : fieldType fs field = some t) :
    ∃ i : Nat, (fs.map Prod.fst).idxOf? field = some i ∧ ∃ f, fs[i]? = some f ∧ f.2 = t := by
  induction fs with
  | nil => simp [fieldType] at h
  | cons x xs ih =>
    by_cases hx : x.1 = field
    · refine ⟨0, by simp [List.idxOf?_cons, hx], x, rfl, ?_⟩
      simpa [fieldType, hx] using h
    · obtain ⟨i, h1, f, h2, h3⟩ := ih (by simpa [fieldType, hx] using h)
      exact ⟨i + 1, by simp [List.idxOf?_cons, hx, h1], f, by simpa using h2, h3⟩

/-- The fields of a struct value. -/
theorem fields_good {Γ : TyEnv} {Φ : HostTypes} (hN : StructsMean Γ Φ) {S : ObjTypes} {I : VarSym → Prop} {w : World} (h : WorldTy Γ Φ S I w) {v : Value} {n : Name}
    {fs0 : List (Name × Tag)} (hf0 : Γ.fields n = some fs0) (hv : ValTy Φ S w.heap v (Γ.structTag n)) : ∃ o vs fs, v = .struct o ∧ S o = some n ∧ fieldsOf w v = .ok (o, vs) ∧ w.heap.obj o = .struct vs ∧
      Γ.fields n = some fs ∧ vs.length = fs.length ∧ ∀ (k : Nat) v f, vs[k]? = some v → fs[k]? = some f → ValTy Φ S w.heap v f.2 := by
  obtain ⟨o, rfl, e⟩ := (valTy_struct hN hf0).1 hv
  obtain ⟨a, fs, vs, b1, b2, b3, b4⟩ := h.heap.structs o n e
  exact ⟨o, vs, fs, rfl, e, by simp [fieldsOf, a, b2], b2, b1, b3, b4⟩

theorem getField_good {Γ : TyEnv} {Φ : HostTypes} (hN : StructsMean Γ Φ) {S : ObjTypes} {I : VarSym → Prop} {w : World} {c : Ctx} (h : WorldTy Γ Φ S I w)
    (hs : ∀ n, c.globals.structs n = Γ.fields n) {v : Value} {n : Name} {fs : List (Name × Tag)} {field : Name} {t : Tag}
    (hv : ValTy Φ S w.heap v (Γ.structTag n)) (hf : Γ.fields n = some fs) (ht : fieldType fs field = some t) :
    Good (getField c w (some (Γ.structTag n)) field v) fun x => ValTy Φ S w.heap x t := by
  obtain ⟨o, vs, fs', rfl, e, h1, h2, h3, h4, h5⟩ := fields_good hN h hf hv
  rw [hf] at h3
  cases h3
  obtain ⟨i, k1, f, k2, rfl⟩ := idxOf_fieldType ht
  have hi : i < vs.length := by rw [h4]; exact (List.getElem?_eq_some_iff.1 k2).1
  unfold getField
  simp only [fieldPos, Option.bind_some, structName_tag, hs, hf, k1, known, Res.bind_ok, h1, List.getElem?_eq_getElem hi]
  exact .ok (h5 i _ f (List.getElem?_eq_getElem hi) k2)

theorem setField_good {Γ : TyEnv} {Φ : HostTypes} (hΦ : HostMono Φ) (hN : StructsMean Γ Φ) {S : ObjTypes} {I : VarSym → Prop} {w : World} {c : Ctx} (h : WorldTy Γ Φ S I w)
    (hs : ∀ n, c.globals.structs n = Γ.fields n) {v x : Value} {n : Name} {fs : List (Name × Tag)} {field : Name} {t : Tag}
    (hv : ValTy Φ S w.heap v (Γ.structTag n)) (hf : Γ.fields n = some fs) (ht : fieldType fs field = some t) (hx : ValTy Φ S w.heap x t) :
    Good (setField c w (some (Γ.structTag n)) field v x) fun w' => Later S w.heap S w'.heap ∧ WorldTy Γ Φ S I w' := by
  obtain ⟨o, vs, fs', rfl, e, h1, h2, h3, h4, h5⟩ := fields_good hN h hf hv
  rw [hf] at h3
  cases h3
  obtain ⟨i, k1, f, k2, rfl⟩ := idxOf_fieldType ht
  have hi : i < vs.length := by rw [h4]; exact (List.getElem?_eq_some_iff.1 k2).1
  unfold setField
  simp only [fieldPos, Option.bind_some, structName_tag, hs, hf, k1, known, Res.bind_ok, h1, hi, if_true]
  have lat : Later S w.heap S { w.heap with obj := upd w.heap.obj o (.struct (vs.set i x)) } := by
    refine ⟨fun _ _ e => e, fun _ e => e, fun p b _ e' => ?_, fun p a q _ e' => ?_⟩
    · have : p ≠ o := by rintro rfl; rw [h2] at e'; cases e'
      simp [upd, this, e']
    · have : p ≠ o := by rintro rfl; rw [h2] at e'; cases e'
      simp [upd, this, e']
  refine Good.ok ⟨lat, ⟨h.heap.fresh, ?_⟩, ?_⟩
  · intro p m ep
    obtain ⟨a, fs2, vs2, b1, b2, b3, b4⟩ := h.heap.structs p m ep
    by_cases hp : p = o
    · subst hp
      rw [e] at ep
      cases ep
      rw [hf] at b1
      cases b1
      rw [h2] at b2
      cases b2
      refine ⟨a, fs, vs.set i x, hf, by simp [upd], by simp [h4], fun k v g j1 j2 => ?_⟩
      by_cases hk : i = k
      · subst hk
        rw [List.getElem?_set_self hi] at j1
        cases j1
        rw [k2] at j2
        cases j2
        exact hx.mono hΦ lat
      · rw [List.getElem?_set_ne hk] at j1
        exact (h5 k v g j1 j2).mono hΦ lat
    · exact ⟨a, fs2, vs2, b1, by simp [upd, hp, b2], b3, fun k v g j1 j2 => (b4 k v g j1 j2).mono hΦ lat⟩
  · intro j t e
    obtain ⟨v, a, b⟩ := h.globs j t e
    exact ⟨v, a, fun j => (b j).mono hΦ lat⟩

end Tiny.Spec
