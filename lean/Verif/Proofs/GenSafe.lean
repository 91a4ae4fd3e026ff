import Verif.Proofs.CodeKeep

/-!
# When the code generator fails

It cannot fail an assertion nor have undefined behaviour on trees the type checker accepts, but for one literal; and
which errors it can report.
-/

namespace Tiny
open Spec

/-- From a state with at least `k` bytes and `F` functions, the action does not crash; it reports an error only if `E`;
its result and the new length satisfy `Q`. -/
def GS {α : Type} (F : Nat) (E : Prop) (k : Nat) (x : CG α) (Q : α → Nat → Prop) : Prop :=
  ∀ s : CS, s.functionPcs.length = F → k ≤ s.program.length → match x s with
    | .ok a s' => s.program.length ≤ s'.program.length ∧ s'.functionPcs.length = F ∧ Q a s'.program.length
    | .err _ => E
    | .abort => False
    | .ub => False

section
variable {α β : Type} {F : Nat} {E : Prop} {k : Nat}

theorem GS.bind {x : CG α} {f : α → CG β} {Q : α → Nat → Prop} {R : β → Nat → Prop} (hx : GS F E k x Q)
    (hf : ∀ a k', k ≤ k' → Q a k' → GS F E k' (f a) R) : GS F E k (x >>= f) R := by
  intro s hF hs
  have h1 := hx s hF hs
  show match (match x s with | .ok a s => f a s | .err s => .err s | .abort => .abort | .ub => .ub) with
    | .ok a s' => s.program.length ≤ s'.program.length ∧ s'.functionPcs.length = F ∧ R a s'.program.length
    | .err _ => E | .abort => False | .ub => False
  cases hxs : x s with
  | ok a s1 =>
    rw [hxs] at h1
    obtain ⟨h1, h2, h3⟩ := h1
    have h4 := hf a s1.program.length (by omega) h3 s1 h2 (Nat.le_refl _)
    simp only
    cases hfs : f a s1 with
    | ok b s2 => rw [hfs] at h4; exact ⟨by omega, h4.2.1, h4.2.2⟩
    | err s2 => rw [hfs] at h4; exact h4
    | abort => rw [hfs] at h4; exact h4
    | ub => rw [hfs] at h4; exact h4
  | err s1 => rw [hxs] at h1; exact h1
  | abort => rw [hxs] at h1; exact h1
  | ub => rw [hxs] at h1; exact h1

/-- What is known of the length after an action. -/
theorem GS.le {x : CG α} {Q : α → Nat → Prop} (hx : GS F E k x Q) : GS F E k x fun a n => k ≤ n ∧ Q a n := by
  intro s hF hs
  have h1 := hx s hF hs
  cases hxs : x s with
  | ok a s1 => rw [hxs] at h1; exact ⟨h1.1, h1.2.1, by omega, h1.2.2⟩
  | err s1 => rw [hxs] at h1; exact h1
  | abort => rw [hxs] at h1; exact h1
  | ub => rw [hxs] at h1; exact h1

theorem GS.pure {a : α} {Q : α → Nat → Prop} (h : ∀ n, k ≤ n → Q a n) : GS F E k (Pure.pure a : CG α) Q :=
  fun _ hF hs => ⟨Nat.le_refl _, hF, h _ hs⟩

theorem GS.done {a : α} : GS F E k (Pure.pure a : CG α) fun _ _ => True := .pure fun _ _ => trivial

theorem gs_err {Q : α → Nat → Prop} (h : E) : GS F E k (reportError : CG α) Q := fun _ _ _ => h

theorem gs_byte (b : UInt8) : GS F E k (genByte b) fun _ _ => True := fun _ hF _ => ⟨by simp, hF, trivial⟩
theorem gs_op (o : Op) : GS F E k (genOp o) fun _ _ => True := gs_byte _

theorem leBytes_len : ∀ n v, (leBytes n v).length = n
  | 0, _ => rfl
  | n + 1, v => by simp [leBytes, leBytes_len n]

theorem gs_value (n v : Nat) (hn : 0 < n) : GS F E k (genValue n v) fun p m => p % n = 0 ∧ p + n ≤ m := fun s hF hs => by
  have h1 := le_alignUp s.program.length n hn
  refine ⟨by simp, hF, alignUp_mod _ _, ?_⟩
  simp only [List.length_append, List.length_replicate, leBytes_len]
  omega

theorem gs_value' (n v : Nat) (hn : 0 < n) : GS F E k (do let _ ← genValue n v) fun _ _ => True :=
  (gs_value n v hn).bind fun _ _ _ _ => .done

theorem gs_count : GS F E k programCount fun _ _ => True := fun _ hF _ => ⟨Nat.le_refl _, hF, trivial⟩

theorem gs_jump (o : Op) (d : Nat) : GS F E k (genJump o d) fun p m => p % 4 = 0 ∧ p + 4 ≤ m :=
  (gs_op o).bind fun _ _ _ _ => gs_value 4 d (by omega)

theorem gs_patch {p : Nat} (v : Nat) (h1 : p % 4 = 0) (h2 : p + 4 ≤ k) : GS F E k (patchJump p v) fun _ _ => True := by
  intro s hF hs
  unfold patchJump
  rw [if_neg (by omega), if_pos (by omega)]
  exact ⟨by simp [writeAt_length], hF, trivial⟩

theorem gs_if {c : Prop} [Decidable c] {x y : CG α} {Q : α → Nat → Prop} (hx : c → GS F E k x Q) (hy : ¬ c → GS F E k y Q) :
    GS F E k (if c then x else y) Q := by
  by_cases h : c
  · rw [if_pos h]; exact hx h
  · rw [if_neg h]; exact hy h

/-- `if c then error; rest`. -/
theorem gs_check {c : Prop} [Decidable c] {f : Unit → CG α} {Q : α → Nat → Prop} (hc : c → E) (hf : GS F E k (f ()) Q) :
    GS F E k (if c then reportError >>= f else f ()) Q :=
  gs_if (fun h => (gs_err (Q := fun _ _ => True) (hc h)).bind fun _ _ _ _ => (fun s _ _ => by
    have := hf s ‹_› (by omega)
    exact this)) fun _ => hf

theorem gs_pushInt (i : BitVec 64) : GS F E k (genPushInt i) fun _ _ => True := by
  unfold genPushInt
  exact gs_if (fun _ => gs_op _) fun _ => gs_if (fun _ => gs_op _) fun _ => (gs_op _).bind fun _ _ _ _ =>
    gs_value' 8 _ (by omega)

theorem gs_pushFloat (i : BitVec 64) : GS F E k (genPushFloat i) fun _ _ => True :=
  (gs_op _).bind fun _ _ _ _ => gs_value' 8 _ (by omega)

theorem gs_pushString (i : Nat) : GS F E k (genPushString i) fun _ _ => True := by
  unfold genPushString
  exact gs_if (fun _ => (gs_op _).bind fun _ _ _ _ => gs_byte _) fun _ => (gs_op _).bind fun _ _ _ _ =>
    gs_value' 4 _ (by omega)

/-- A function may be called with this many arguments. -/
def FnSym.takes : FnSym → Nat → Prop
  | .tiny _, _ => True
  | .foreign _ m va, n => (va = true ∧ m ≤ n) ∨ m = n

theorem gs_call (n : Nat) (f : FnSym) (h : E ∨ f.takes n) : GS F E k (genCall n f) fun _ _ => True := by
  cases f with
  | foreign i m va =>
    refine (gs_op _).bind fun _ k' _ _ => gs_check (fun hc => ?_) ?_
    · rcases h with h | h | h
      · exact h
      · simp [h] at hc
      · simp [h] at hc
    · exact (gs_byte _).bind fun _ _ _ _ => gs_value' 4 _ (by omega)
  | tiny i => exact (gs_op _).bind fun _ _ _ _ => (gs_byte _).bind fun _ _ _ _ => gs_value' 4 _ (by omega)

theorem gs_getVar (s : Option VarSym) (h : E ∨ s.isSome = true) : GS F E k (genGetVar s) fun _ _ => True := by
  cases s with
  | none => exact gs_err (h.resolve_right (by simp))
  | some s =>
    cases s with
    | glob i => exact (gs_op _).bind fun _ _ _ _ => gs_value' 4 _ (by omega)
    | loc i =>
      unfold genGetVar
      exact gs_if (fun _ => (gs_op _).bind fun _ _ _ _ => gs_value' 4 _ (by omega)) fun _ => (gs_op _).bind fun _ _ _ _ => gs_byte _
    | const c =>
      cases c with
      | str i => exact gs_pushString i
      | bool b => exact gs_op _
      | int i => exact gs_pushInt i
      | float i => exact gs_pushFloat i

/-- The field exists, and its number fits into a byte. -/
def FieldOk (g : Globals) (tag : Option Tag) (field : Name) : Prop :=
  ∃ n fs, tag.bind Tag.structName = some n ∧ g.structs n = some fs ∧ fs.length ≤ 256 ∧ ∃ p ∈ fs, p.1 = field

theorem gs_field {g : Globals} {t : Option Tag} {n : Name} (h : FieldOk g t n) : GS F E k (fieldIndex g t n) fun _ _ => True := by
  obtain ⟨m, fs, h1, h2, h3, p, h4, h5⟩ := h
  unfold fieldIndex
  rw [h1]
  simp only [h2]
  have : fs.findIdx (fun x => decide (x.1 = n)) < fs.length := List.findIdx_lt_length_of_exists ⟨p, h4, by simp [h5]⟩
  rw [if_pos ⟨this, by omega⟩]
  exact .done

end

/-- The binary operators the code generator knows. -/
def Tok.binary (op : Tok) : Prop := op = .notEquals ∨ op = .logAnd ∨ op = .logOr ∨ (binOpcode op).isSome = true

mutual
/-- Nothing in the expression makes the code generator crash. -/
def GenE (g : Globals) : Expr → Prop
  | .index a e f _ => f.isSome = true ∧ GenE g a ∧ GenE g e
  | .dot l field tag => FieldOk g tag field ∧ GenE g l
  | .call _ as => GenEs g as
  | .ctor n names as => (g.structs n).isSome = true ∧ (∀ ns, names = some ns → as.length ≤ ns.length) ∧ GenEs g as
  | .cast e _ => GenE g e
  | .paren e => GenE g e
  | .bin _ l r => GenE g l ∧ GenE g r
  | .un op e => ¬ (op = .minus ∧ e = .int (BitVec.intMin 32)) ∧ GenE g e
  | .ite c a b => GenE g c ∧ GenE g a ∧ GenE g b
  | _ => True
/-- See `GenE`. -/
def GenEs (g : Globals) : List Expr → Prop
  | [] => True
  | e :: es => GenE g e ∧ GenEs g es
end

mutual
/-- Nothing in the expression makes the code generator report an error. -/
def FitE (g : Globals) : Expr → Prop
  | .id _ s => s.isSome = true
  | .index a e f _ => (∀ x, f = some x → x.takes 2) ∧ FitE g a ∧ FitE g e
  | .dot l _ _ => FitE g l
  | .call n as => (∃ f, g.funcs n = some f ∧ f.takes as.length) ∧ as.length ≤ 255 ∧ FitEs g as
  | .ctor _ none as => FitEs g as
  | .ctor _ (some ns) as => ∀ x ∈ ns, FitFirst g x ns as
  | .cast e _ => FitE g e
  | .paren e => FitE g e
  | .bin op l r => op.binary ∧ FitE g l ∧ FitE g r
  | .un op e => (op = .minus ∨ op = .bang) ∧ FitE g e
  | .ite c a b => FitE g c ∧ FitE g a ∧ FitE g b
  | _ => True
/-- See `FitE`. -/
def FitEs (g : Globals) : List Expr → Prop
  | [] => True
  | e :: es => FitE g e ∧ FitEs g es
/-- The first of the arguments named `x`. -/
def FitFirst (g : Globals) (x : Name) : List Name → List Expr → Prop
  | n :: ns, e :: es => if n = x then FitE g e else FitFirst g x ns es
  | [], _ => True
  | _, [] => True
end

theorem fitFirst_not {g : Globals} {x : Name} : ∀ {ns : List Name} {es : List Expr}, x ∉ ns → FitFirst g x ns es
  | [], es, _ => by cases es <;> simp [FitFirst]
  | n :: ns, [], _ => by simp [FitFirst]
  | n :: ns, e :: es, h => by
    simp only [List.mem_cons, not_or] at h
    rw [FitFirst, if_neg fun k => h.1 k.symm]
    exact fitFirst_not h.2

section
variable {F : Nat} {E : Prop} (g : Globals)

theorem or_and_left {E A B : Prop} (h : E ∨ A ∧ B) : E ∨ A := h.imp_right (·.1)
theorem or_and_right {E A B : Prop} (h : E ∨ A ∧ B) : E ∨ B := h.imp_right (·.2)

mutual
theorem gs_E {k : Nat} (e : Expr) (hg : GenE g e) (he : E ∨ FitE g e) : GS F E k (compileE g e) fun _ _ => True := by
  match e with
  | .null => rw [compileE]; exact gs_op _
  | .bool b => rw [compileE]; exact gs_op _
  | .int i => rw [compileE]; exact gs_pushInt _
  | .char i => rw [compileE]; exact gs_pushInt _
  | .float f => rw [compileE]; exact gs_pushFloat _
  | .str i => rw [compileE]; exact gs_pushString _
  | .id n s => rw [compileE]; exact gs_getVar s (by simpa [FitE] using he)
  | .index a e f st =>
    rw [compileE.eq_def]
    simp only [GenE, FitE] at hg he
    cases f with
    | none => simp at hg
    | some f =>
      exact (gs_E a hg.2.1 (or_and_left (or_and_right he))).bind fun _ _ _ _ => (gs_E e hg.2.2 (or_and_right (or_and_right he))).bind
        fun _ _ _ _ => (gs_call 2 f (he.imp_right fun h => h.1 f rfl)).bind fun _ _ _ _ => gs_op _
  | .dot l field tag =>
    rw [compileE]
    simp only [GenE, FitE] at hg he
    exact (gs_field hg.1).bind fun _ _ _ _ => (gs_E l hg.2 he).bind fun _ _ _ _ => (gs_op _).bind fun _ _ _ _ => gs_byte _
  | .call n as =>
    rw [compileE]
    simp only [GenE, FitE] at hg he
    refine (gs_args 0 as hg (or_and_right (or_and_right he)) (or_and_left (or_and_right (he.imp_right fun h => ⟨trivial, by simpa using h.2⟩)))).bind fun m k' _ hm => ?_
    cases hf : g.funcs n with
    | none => exact gs_err (he.resolve_right (by rintro ⟨⟨f, h, -⟩, -⟩; rw [hf] at h; cases h))
    | some f =>
      refine (gs_call m f (he.imp_right fun h => ?_)).bind fun _ _ _ _ => gs_op _
      obtain ⟨⟨f', h1, h2⟩, -⟩ := h
      rw [hf] at h1
      cases h1
      rw [hm, Nat.zero_add]
      exact h2
  | .ctor n names as =>
    rw [compileE.eq_def]
    simp only [GenE] at hg
    obtain ⟨fs, hfs⟩ := Option.isSome_iff_exists.1 hg.1
    simp only [hfs]
    cases names with
    | none => exact (gs_list as hg.2.2 (by simpa only [FitE] using he)).bind fun _ _ _ _ => (gs_op _).bind fun _ _ _ _ => gs_byte _
    | some ns =>
      refine GS.bind (Q := fun _ _ => True) (gs_each _ (fun f k => gs_named f ns as (hg.2.1 ns rfl) hg.2.2 (he.imp_right fun h => by
        simp only [FitE] at h
        by_cases hf : f ∈ ns
        · exact h f hf
        · exact fitFirst_not hf)) _) fun _ _ _ _ => (gs_op _).bind fun _ _ _ _ => gs_byte _
  | .cast e t => rw [compileE]; simp only [GenE, FitE] at hg he; exact gs_E e hg he
  | .paren e => rw [compileE]; simp only [GenE, FitE] at hg he; exact gs_E e hg he
  | .bin op l r =>
    simp only [GenE, FitE] at hg he
    have hl : ∀ k, GS F E k (compileE g l) fun _ _ => True := fun k => gs_E l hg.1 (or_and_left (or_and_right he))
    have hr : ∀ k, GS F E k (compileE g r) fun _ _ => True := fun k => gs_E r hg.2 (or_and_right (or_and_right he))
    rw [compileE.eq_def]
    simp only
    split
    · exact (hl _).bind fun _ _ _ _ => gs_if (fun _ => gs_op _) fun _ => (hr _).bind fun _ _ _ _ => gs_op _
    · exact (hl _).bind fun _ _ _ _ => gs_if (fun _ => gs_op _) fun _ => (hr _).bind fun _ _ _ _ => gs_op _
    · exact (hl _).bind fun _ _ _ _ => (hr _).bind fun _ _ _ _ => (gs_op _).bind fun _ _ _ _ => gs_op _
    · refine (hl _).bind fun _ _ _ _ => (gs_jump _ _).bind fun p k1 _ hp => (hr _).bind fun _ k2 h2 _ => (gs_jump _ _).bind fun q k3 h3 hq =>
        gs_count.bind fun _ k4 h4 _ => (gs_patch _ hp.1 (by omega)).bind fun _ k5 h5 _ => (gs_op _).bind fun _ k6 h6 _ =>
        gs_count.bind fun _ k7 h7 _ => gs_patch _ hq.1 (by omega)
    · refine (hl _).bind fun _ _ _ _ => (gs_jump _ _).bind fun p k1 _ hp => (gs_op _).bind fun _ k2 h2 _ => (gs_jump _ _).bind fun q k3 h3 hq =>
        gs_count.bind fun _ k4 h4 _ => (gs_patch _ hp.1 (by omega)).bind fun _ k5 h5 _ => (hr _).bind fun _ k6 h6 _ =>
        gs_count.bind fun _ k7 h7 _ => gs_patch _ hq.1 (by omega)
    · rename_i n1 n2 n3 n4 n5
      cases ho : binOpcode op with
      | some o => exact (hl _).bind fun _ _ _ _ => (hr _).bind fun _ _ _ _ => gs_op _
      | none =>
        refine gs_err (he.resolve_right ?_)
        rintro ⟨h | h | h | h, -⟩
        · exact n3 h
        · exact n4 h
        · exact n5 h
        · simp [ho] at h
  | .un op e =>
    simp only [GenE, FitE] at hg he
    have h0 : ∀ k, GS F E k (compileE g e) fun _ _ => True := fun k => gs_E e hg.2 (or_and_right he)
    rw [compileE.eq_def]
    simp only
    split
    · split
      · rename_i i
        refine (gs_op _).bind fun _ _ _ _ => gs_if (fun h => ?_) fun _ => gs_value' 8 _ (by omega)
        exact absurd ⟨rfl, by rw [h]⟩ hg.1
      · exact (h0 _).bind fun _ _ _ _ => (gs_op _).bind fun _ _ _ _ => (gs_value 8 _ (by omega)).bind fun _ _ _ _ => gs_op _
    · exact (h0 _).bind fun _ _ _ _ => gs_op _
    · rename_i h1 h2
      exact gs_err (he.resolve_right fun h => h.1.elim h1 h2)
  | .ite c a b =>
    rw [compileE]
    simp only [GenE, FitE] at hg he
    refine (gs_E c hg.1 (or_and_left he)).bind fun _ _ _ _ => (gs_jump _ _).bind fun p k1 _ hp =>
      (gs_E a hg.2.1 (or_and_left (or_and_right he))).bind fun _ k2 h2 _ => (gs_jump _ _).bind fun q k3 h3 hq =>
      gs_count.bind fun _ k4 h4 _ => (gs_patch _ hp.1 (by omega)).bind fun _ k5 h5 _ =>
      (gs_E b hg.2.2 (or_and_right (or_and_right he))).bind fun _ k6 h6 _ => gs_count.bind fun _ k7 h7 _ => gs_patch _ hq.1 (by omega)
termination_by (sizeOf e, 0)
theorem gs_args {k : Nat} (n : Nat) (es : List Expr) (hg : GenEs g es) (he : E ∨ FitEs g es) (hn : E ∨ n + es.length ≤ 255) :
    GS F E k (compileArgs g n es) fun m _ => m = n + es.length := by
  match es with
  | [] => rw [compileArgs]; exact .pure fun _ _ => by simp
  | e :: es =>
    rw [compileArgs]
    simp only [GenEs, FitEs, List.length_cons] at hg he hn
    refine gs_check (fun h => hn.resolve_right (by omega)) ?_
    refine (gs_E e hg.1 (or_and_left he)).bind fun _ _ _ _ => ?_
    intro s hF hs
    have := gs_args (n + 1) es hg.2 (or_and_right he) (hn.imp_right (by omega)) s hF hs
    cases hx : compileArgs g (n + 1) es s with
    | ok a s' => rw [hx] at this; exact ⟨this.1, this.2.1, by rw [this.2.2, List.length_cons]; omega⟩
    | err s' => rw [hx] at this; exact this
    | abort => rw [hx] at this; exact this
    | ub => rw [hx] at this; exact this
termination_by (sizeOf es, 0)
theorem gs_list {k : Nat} (es : List Expr) (hg : GenEs g es) (he : E ∨ FitEs g es) : GS F E k (compileList g es) fun _ _ => True := by
  match es with
  | [] => rw [compileList]; exact .done
  | e :: es =>
    rw [compileList]
    simp only [GenEs, FitEs] at hg he
    exact (gs_E e hg.1 (or_and_left he)).bind fun _ _ _ _ => gs_list es hg.2 (or_and_right he)
termination_by (sizeOf es, 0)
theorem gs_named {k : Nat} (f : Name) (ns : List Name) (es : List Expr) (hl : es.length ≤ ns.length) (hg : GenEs g es) (he : E ∨ FitFirst g f ns es) :
    GS F E k (compileNamed g f ns es) fun _ _ => True := by
  match es, ns with
  | [], _ => rw [compileNamed]; exact .done
  | e :: es, [] => simp at hl
  | e :: es, n :: ns =>
    rw [compileNamed]
    simp only [GenEs, FitFirst, List.length_cons] at hg he hl
    exact gs_if (fun h => gs_E e hg.1 (by rwa [if_pos h] at he)) fun h => gs_named f ns es (by omega) hg.2 (by rwa [if_neg h] at he)
termination_by (sizeOf es, 0)
theorem gs_each {k : Nat} (x : Name → CG Unit) (hx : ∀ f k, GS F E k (x f) fun _ _ => True) (fs : List Name) :
    GS F E k (eachField x fs) fun _ _ => True := by
  match fs with
  | [] => rw [eachField]; exact .done
  | f :: fs => rw [eachField]; exact (hx f k).bind fun _ _ _ _ => gs_each x hx fs
termination_by (0, sizeOf fs)
end
end

/-! ## Statements -/

mutual
/-- Nothing in the statement makes the code generator crash, when there are `F` functions. -/
def GenS (g : Globals) (F : Nat) : Stmt → Prop
  | .node _ s => GenS g F s
  | .call _ as => GenEs g as
  | .block ss => GenSs g F ss
  | .assign _ l r => GenE g l ∧ GenE g r
  | .proc i _ _ b => i < F ∧ GenS g F b
  | .ifThen c b => GenE g c ∧ GenS g F b
  | .ifElse c b a => GenE g c ∧ GenS g F b ∧ GenS g F a
  | .while c b => GenE g c ∧ GenS g F b
  | .for i c s b => GenS g F i ∧ GenE g c ∧ GenS g F s ∧ GenS g F b
  | .ret (some e) => GenE g e
  | _ => True
/-- See `GenS`. -/
def GenSs (g : Globals) (F : Nat) : List Stmt → Prop
  | [] => True
  | s :: ss => GenS g F s ∧ GenSs g F ss
end

/-- Something can be stored there. -/
def FitStore : Expr → Prop
  | .id _ (some (.glob _)) => True
  | .id _ (some (.loc _)) => True
  | .index _ _ _ (some f) => f.takes 3
  | .dot _ _ _ => True
  | _ => False

/-- The parts of the left side which are evaluated in any case. -/
def FitTarget (g : Globals) : Expr → Prop
  | .index a i _ _ => FitE g a ∧ FitE g i
  | .dot l _ _ => FitE g l
  | _ => True

mutual
/-- Nothing in the statement makes the code generator report an error. -/
def FitS (g : Globals) : Stmt → Prop
  | .node _ s => FitS g s
  | .call n as => FitE g (.call n as)
  | .block ss => FitSs g ss
  | .assign op l r => op = .declareConst ∨
      ((op = .equal ∨ op = .declare ∨ (compoundOp op).isSome = true) ∧ FitStore l ∧ FitTarget g l ∧ FitE g r ∧
        ((compoundOp op).isSome = true → FitE g l))
  | .proc _ _ nl b => nl ≤ 255 ∧ FitS g b
  | .ifThen c b => FitE g c ∧ FitS g b
  | .ifElse c b a => FitE g c ∧ FitS g b ∧ FitS g a
  | .while c b => FitE g c ∧ FitS g b
  | .for i c s b => FitS g i ∧ FitE g c ∧ FitS g s ∧ FitS g b
  | .ret (some e) => FitE g e
  | .expr _ => False
  | _ => True
/-- See `FitS`. -/
def FitSs (g : Globals) : List Stmt → Prop
  | [] => True
  | s :: ss => FitS g s ∧ FitSs g ss
end

section
variable {F : Nat} {E : Prop} (g : Globals)

theorem gs_store {k : Nat} (l : Expr) (hl : l.isLhs = true) (hg : GenE g l) (he : E ∨ (FitStore l ∧ FitTarget g l)) :
    GS F E k (compileStore g l) fun _ _ => True := by
  cases l with
  | id n s =>
    have h0 : E ∨ FitStore (.id n s) := or_and_left he
    cases s with
    | none => exact gs_err (h0.resolve_right (by simp [FitStore]))
    | some s =>
      cases s with
      | glob i => exact (gs_op _).bind fun _ _ _ _ => gs_value' 4 _ (by omega)
      | loc i => exact (gs_op _).bind fun _ _ _ _ => gs_value' 4 _ (by omega)
      | const c => exact gs_err (h0.resolve_right (by simp [FitStore]))
  | index a e f st =>
    unfold compileStore
    cases st with
    | none => exact gs_err (he.resolve_right (by simp [FitStore]))
    | some f => exact gs_call 3 f (he.imp_right fun h => by simpa [FitStore] using h.1)
  | dot l field tag =>
    simp only [GenE, FitTarget] at hg he
    exact (gs_field hg.1).bind fun _ _ _ _ => (gs_E g l hg.2 (or_and_right he)).bind fun _ _ _ _ => (gs_op _).bind fun _ _ _ _ => gs_byte _
  | _ => simp [Expr.isLhs] at hl

theorem gs_rhs {k : Nat} (op : Tok) (l r : Expr) (hl : GenE g l) (hr : GenE g r) (he : E ∨ (FitE g r ∧ ((compoundOp op).isSome = true → FitE g l))) :
    GS F E k (compileRhs g op l r) fun _ _ => True := by
  unfold compileRhs
  split
  · exact gs_E g r hr (or_and_left he)
  · rename_i o ho
    exact (gs_E g l hl (he.imp_right fun h => h.2 (by rw [ho]; rfl))).bind fun _ _ _ _ => gs_if (fun _ => gs_op _) fun _ =>
      (gs_E g r hr (or_and_left he)).bind fun _ _ _ _ => gs_op _

theorem fitStore_lhs {l : Expr} (h : FitStore l) : l.isLhs = true := by
  cases l <;> simp_all [FitStore, Expr.isLhs]

theorem gs_assign {k : Nat} (op : Tok) (l r : Expr) (hl : GenE g l) (hr : GenE g r) (he : E ∨ FitS g (.assign op l r)) :
    GS F E k (compileAssign g op l r) fun _ _ => True := by
  unfold compileAssign
  refine gs_if (fun _ => .done) fun h1 => gs_if (fun h2 => ?_) fun h2 => ?_
  · have he' : E ∨ (FitStore l ∧ FitTarget g l ∧ FitE g r ∧ ((compoundOp op).isSome = true → FitE g l)) := he.imp_right fun h => by
      simp only [FitS] at h
      exact (h.resolve_left h1).2
    by_cases hlhs : l.isLhs = true
    · have hrest : ∀ k, GS F E k (do compileRhs g op l r; compileStore g l) fun _ _ => True := fun k =>
        (gs_rhs g op l r hl hr (or_and_right (or_and_right he'))).bind fun _ _ _ _ => gs_store g l hlhs hl (he'.imp_right fun h => ⟨h.1, h.2.1⟩)
      rw [if_neg (by simp [hlhs])]
      cases l with
      | index a e f st =>
        simp only [GenE] at hl
        simp only [FitTarget] at he'
        exact (gs_E g a hl.2.1 (he'.imp_right fun h => h.2.1.1)).bind fun _ _ _ _ =>
          (gs_E g e hl.2.2 (he'.imp_right fun h => h.2.1.2)).bind fun _ _ _ _ => hrest _
      | id n s => exact hrest _
      | dot a b c => exact hrest _
      | _ => simp [Expr.isLhs] at hlhs
    · rw [if_pos (by simpa using hlhs)]
      exact GS.bind (Q := fun _ _ => False) (gs_err (he'.resolve_right fun h => hlhs (fitStore_lhs h.1))) fun _ _ _ h => h.elim
  · refine gs_err (he.resolve_right fun h => ?_)
    simp only [FitS] at h
    exact h.elim h1 fun h => h2 h.1

theorem gs_line {k : Nat} (n : Nat) : GS F E k (addLine n) fun _ _ => True := fun _ hF _ => ⟨Nat.le_refl _, hF, trivial⟩

mutual
/-- The jumps left open lie within the first `n` bytes. -/
def PatchOk (n : Nat) : Stmt → Prop
  | .node _ s => PatchOk n s
  | .ifThen _ body => PatchOk n body
  | .ifElse _ body alt => PatchOk n body ∧ PatchOk n alt
  | .block ss => PatchOks n ss
  | .brk p => p % 4 = 0 ∧ p + 4 ≤ n
  | .cont p => p % 4 = 0 ∧ p + 4 ≤ n
  | _ => True
/-- See `PatchOk`. -/
def PatchOks (n : Nat) : List Stmt → Prop
  | [] => True
  | s :: ss => PatchOk n s ∧ PatchOks n ss
end

mutual
theorem PatchOk.mono {n m : Nat} (h : n ≤ m) : ∀ {s : Stmt}, PatchOk n s → PatchOk m s
  | .node _ s, k => by simp only [PatchOk] at *; exact PatchOk.mono h k
  | .ifThen _ b, k => by simp only [PatchOk] at *; exact PatchOk.mono h k
  | .ifElse _ b a, k => by simp only [PatchOk] at *; exact ⟨PatchOk.mono h k.1, PatchOk.mono h k.2⟩
  | .block ss, k => by simp only [PatchOk] at *; exact PatchOks.mono h k
  | .brk p, k => by simp only [PatchOk] at *; omega
  | .cont p, k => by simp only [PatchOk] at *; omega
  | .call _ _, _ | .assign _ _ _, _ | .proc _ _ _ _, _ | .while _ _, _ | .for _ _ _ _, _ | .ret _, _ | .use, _ | .expr _, _ => by
    simp only [PatchOk]
theorem PatchOks.mono {n m : Nat} (h : n ≤ m) : ∀ {ss : List Stmt}, PatchOks n ss → PatchOks m ss
  | [], _ => trivial
  | _ :: _, k => by simp only [PatchOks] at *; exact ⟨PatchOk.mono h k.1, PatchOks.mono h k.2⟩
end

mutual
theorem gs_patchBC {k : Nat} (b c : Nat) : ∀ s : Stmt, PatchOk k s → GS F E k (patchBC b c s) fun _ _ => True
  | .node _ s, h => by rw [patchBC]; exact gs_patchBC b c s (by simpa [PatchOk] using h)
  | .ifThen _ s, h => by rw [patchBC]; exact gs_patchBC b c s (by simpa [PatchOk] using h)
  | .ifElse _ s t, h => by
    rw [patchBC]
    simp only [PatchOk] at h
    exact (gs_patchBC b c s h.1).bind fun _ _ hk _ => gs_patchBC b c t (h.2.mono hk)
  | .block ss, h => by rw [patchBC]; exact gs_patchBCs b c ss (by simpa [PatchOk] using h)
  | .brk p, h => by rw [patchBC]; simp only [PatchOk] at h; exact gs_patch _ h.1 h.2
  | .cont p, h => by rw [patchBC]; simp only [PatchOk] at h; exact gs_patch _ h.1 h.2
  | .call _ _, _ | .assign _ _ _, _ | .proc _ _ _ _, _ | .while _ _, _ | .for _ _ _ _, _ | .ret _, _ | .use, _ | .expr _, _ => by
    simp only [patchBC]; exact .done
theorem gs_patchBCs {k : Nat} (b c : Nat) : ∀ s : List Stmt, PatchOks k s → GS F E k (patchBCs b c s) fun _ _ => True
  | [], _ => by rw [patchBCs]; exact .done
  | s :: ss, h => by
    rw [patchBCs]
    simp only [PatchOks] at h
    exact (gs_patchBC b c s h.1).bind fun _ _ hk _ => gs_patchBCs b c ss (h.2.mono hk)
end

mutual
theorem gs_S {k : Nat} (s : Stmt) (hg : GenS g F s) (he : E ∨ FitS g s) : GS F E k (compileS g s) fun x n => PatchOk n x := by
  match s with
  | .node line s =>
    rw [compileS]
    simp only [GenS, FitS] at hg he
    exact (gs_line _).bind fun _ _ _ _ => (gs_S s hg he).bind fun _ _ _ h => .pure fun n hn => by simpa [PatchOk] using h.mono hn
  | .call n as =>
    rw [compileS]
    simp only [GenS, FitS, FitE] at hg he
    refine GS.bind (Q := fun _ _ => True) ?_ fun _ _ _ _ => .pure fun _ _ => by simp [PatchOk]
    unfold compileCall
    refine (gs_args g 0 as hg (or_and_right (or_and_right he)) (he.imp_right fun h => by simpa using h.2.1)).bind fun m k' _ hm => ?_
    cases hf : g.funcs n with
    | none => exact gs_err (he.resolve_right (by rintro ⟨⟨f, h, -⟩, -⟩; rw [hf] at h; cases h))
    | some f =>
      refine gs_call m f (he.imp_right fun h => ?_)
      obtain ⟨⟨f', h1, h2⟩, -⟩ := h
      rw [hf] at h1
      cases h1
      rw [hm, Nat.zero_add]
      exact h2
  | .block ss =>
    rw [compileS]
    simp only [GenS, FitS] at hg he
    exact (gs_Ss ss hg he).bind fun _ _ _ h => .pure fun n hn => by simpa [PatchOk] using h.mono hn
  | .assign op l r =>
    rw [compileS]
    simp only [GenS] at hg
    exact (gs_assign g op l r hg.1 hg.2 he).bind fun _ _ _ _ => .pure fun _ _ => by simp [PatchOk]
  | .proc i na nl b =>
    rw [compileS]
    simp only [GenS, FitS] at hg he
    refine (gs_jump _ _).bind fun p k1 _ hp => gs_count.bind fun q k2 h2 _ => GS.bind (Q := fun _ _ => True) ?_ fun _ k3 h3 _ => ?_
    · intro s hF hs
      unfold setFunctionPc
      rw [if_pos (by omega)]
      exact ⟨Nat.le_refl _, by simpa using hF, trivial⟩
    · refine gs_check (fun h => he.resolve_right (by omega)) ?_
      refine gs_if (fun _ => (gs_op _).bind fun _ k4 h4 _ => (gs_byte _).bind fun _ k5 h5 _ => ?_) fun _ => ?_
      · exact (gs_S b hg.2 (or_and_right he)).bind fun _ k6 h6 _ => (gs_op _).bind fun _ k7 h7 _ => gs_count.bind fun _ k8 h8 _ =>
          (gs_patch _ hp.1 (by omega)).bind fun _ _ _ _ => .pure fun _ _ => by simp [PatchOk]
      · exact (gs_S b hg.2 (or_and_right he)).bind fun _ k6 h6 _ => (gs_op _).bind fun _ k7 h7 _ => gs_count.bind fun _ k8 h8 _ =>
          (gs_patch _ hp.1 (by omega)).bind fun _ _ _ _ => .pure fun _ _ => by simp [PatchOk]
  | .ifThen c b =>
    rw [compileS]
    simp only [GenS, FitS] at hg he
    exact (gs_E g c hg.1 (or_and_left he)).bind fun _ k1 h1 _ => (gs_jump _ _).bind fun p k2 h2 hp =>
      (gs_S b hg.2 (or_and_right he)).bind fun _ k3 h3 h => gs_count.bind fun _ k4 h4 _ =>
      (gs_patch _ hp.1 (by omega)).bind fun _ k5 h5 _ => .pure fun n hn => by simpa [PatchOk] using h.mono (m := n) (by omega)
  | .ifElse c b a =>
    rw [compileS]
    simp only [GenS, FitS] at hg he
    exact (gs_E g c hg.1 (or_and_left he)).bind fun _ k1 h1 _ => (gs_jump _ _).bind fun p k2 h2 hp =>
      (gs_S b hg.2.1 (or_and_left (or_and_right he))).bind fun _ k3 h3 h => (gs_jump _ _).bind fun q k4 h4 hq =>
      gs_count.bind fun _ k5 h5 _ => (gs_patch _ hp.1 (by omega)).bind fun _ k6 h6 _ =>
      (gs_S a hg.2.2 (or_and_right (or_and_right he))).bind fun _ k7 h7 h' => gs_count.bind fun _ k8 h8 _ =>
      (gs_patch _ hq.1 (by omega)).bind fun _ k9 h9 _ => .pure fun n hn => by
        simp only [PatchOk]; exact ⟨h.mono (by omega), h'.mono (by omega)⟩
  | .while c b =>
    rw [compileS]
    simp only [GenS, FitS] at hg he
    exact gs_count.bind fun _ k0 h0 _ => (gs_E g c hg.1 (or_and_left he)).bind fun _ k1 h1 _ => (gs_jump _ _).bind fun p k2 h2 hp =>
      (gs_S b hg.2 (or_and_right he)).bind fun _ k3 h3 h => (gs_jump _ _).bind fun _ k4 h4 _ => gs_count.bind fun _ k5 h5 _ =>
      (gs_patch _ hp.1 (by omega)).bind fun _ k6 h6 _ => gs_count.bind fun _ k7 h7 _ =>
      (gs_patchBC _ _ _ (h.mono (by omega))).bind fun _ _ _ _ => .pure fun _ _ => by simp [PatchOk]
  | .for i c st b =>
    rw [compileS]
    simp only [GenS, FitS] at hg he
    exact (gs_S i hg.1 (or_and_left he)).bind fun _ _ _ _ => gs_count.bind fun _ k0 h0 _ =>
      (gs_E g c hg.2.1 (or_and_left (or_and_right he))).bind fun _ k1 h1 _ => (gs_jump _ _).bind fun p k2 h2 hp =>
      (gs_S b hg.2.2.2 (or_and_right (or_and_right (or_and_right he)))).bind fun _ k3 h3 h => gs_count.bind fun _ k4 h4 _ =>
      (gs_S st hg.2.2.1 (or_and_left (or_and_right (or_and_right he)))).bind fun _ k5 h5 _ => (gs_jump _ _).bind fun _ k6 h6 _ =>
      gs_count.bind fun _ k7 h7 _ => (gs_patch _ hp.1 (by omega)).bind fun _ k8 h8 _ => gs_count.bind fun _ k9 h9 _ =>
      (gs_patchBC _ _ _ (h.mono (by omega))).bind fun _ _ _ _ => .pure fun _ _ => by simp [PatchOk]
  | .ret none => rw [compileS]; exact (gs_op _).bind fun _ _ _ _ => .pure fun _ _ => by simp [PatchOk]
  | .ret (some e) =>
    rw [compileS]
    simp only [GenS, FitS] at hg he
    exact (gs_E g e hg he).bind fun _ _ _ _ => (gs_op _).bind fun _ _ _ _ => .pure fun _ _ => by simp [PatchOk]
  | .brk _ =>
    rw [compileS]
    exact (gs_jump _ _).bind fun p k1 h1 hp => .pure fun n hn => by simp only [PatchOk]; omega
  | .cont _ =>
    rw [compileS]
    exact (gs_jump _ _).bind fun p k1 h1 hp => .pure fun n hn => by simp only [PatchOk]; omega
  | .use => rw [compileS]; exact .pure fun _ _ => by simp [PatchOk]
  | .expr e => rw [compileS]; exact gs_err (he.resolve_right (by simp [FitS]))
theorem gs_Ss {k : Nat} (ss : List Stmt) (hg : GenSs g F ss) (he : E ∨ FitSs g ss) : GS F E k (compileSs g ss) fun x n => PatchOks n x := by
  match ss with
  | [] => rw [compileSs]; exact .pure fun _ _ => by simp [PatchOks]
  | s :: ss =>
    rw [compileSs]
    simp only [GenSs, FitSs] at hg he
    exact (gs_S s hg.1 (or_and_left he)).bind fun _ _ _ h => (gs_Ss ss hg.2 (or_and_right he)).bind fun _ _ h1 h' =>
      .pure fun n hn => by simp only [PatchOks]; exact ⟨h.mono (by omega), h'.mono hn⟩
end
end

end Tiny
