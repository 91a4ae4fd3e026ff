import Verif.Proofs.CodegenStmt
import Verif.Spec.Rollback

/-!
# What the code generator leaves alone, also when it reports an error
-/

namespace Tiny
open Spec

theorem _root_.Tiny.Spec.LKeep.refl (l : List LineRec) : LKeep l l := ⟨fun _ _ => rfl, fun _ r h => ⟨r, h, rfl⟩⟩

theorem _root_.Tiny.Spec.LKeep.le {l l' : List LineRec} (a : LKeep l l') : l.length ≤ l'.length := by
  refine Nat.le_of_not_lt fun h => ?_
  obtain ⟨r', h1, -⟩ := a.pcs l'.length l[l'.length] (by simp [h])
  rw [List.getElem?_eq_none (Nat.le_refl _)] at h1
  cases h1

theorem _root_.Tiny.Spec.LKeep.trans {l l' l'' : List LineRec} (a : LKeep l l') (b : LKeep l' l'') : LKeep l l'' := by
  refine ⟨fun j hj => (b.old j (by have := a.le; omega)).trans (a.old j hj), fun j r h => ?_⟩
  obtain ⟨r1, h1, e1⟩ := a.pcs j r h
  obtain ⟨r2, h2, e2⟩ := b.pcs j r1 h1
  exact ⟨r2, h2, e2.trans e1⟩

theorem lkeep_add (l : List LineRec) (r : LineRec) : LKeep l (addRecord l r) := by
  unfold addRecord
  cases hl : l.getLast? with
  | none =>
    have : l = [] := by simpa using hl
    subst this
    exact ⟨by simp, by simp⟩
  | some last =>
    have hne : l ≠ [] := by rintro rfl; simp at hl
    obtain ⟨l0, rfl⟩ : ∃ l0, l = l0 ++ [last] := ⟨l.dropLast, by
      rw [List.getLast?_eq_some_getLast hne] at hl
      simp only [Option.some.injEq] at hl
      rw [← hl, List.dropLast_concat_getLast]⟩
    simp only
    split
    · rename_i he
      refine ⟨fun j hj => ?_, fun j x hx => ?_⟩
      · simp only [List.length_append, List.length_singleton] at hj
        simp only [List.dropLast_concat]
        rw [List.getElem?_append_left (by omega), List.getElem?_append_left (by omega)]
      · simp only [List.dropLast_concat]
        by_cases hj : j < l0.length
        · rw [List.getElem?_append_left hj] at hx ⊢
          exact ⟨x, hx, rfl⟩
        · rw [List.getElem?_append_right (by omega)] at hx ⊢
          cases hk : j - l0.length with
          | zero => rw [hk] at hx; cases hx; exact ⟨_, rfl, he⟩
          | succ m => rw [hk] at hx; simp at hx
    · refine ⟨fun j hj => ?_, fun j x hx => ⟨x, ?_, rfl⟩⟩
      · rw [List.getElem?_append_left (by omega)]
      · rw [List.getElem?_append_left (List.getElem?_eq_some_iff.1 hx).1]; exact hx

/-- The first `k` bytes and the entries of the functions outside `I` are the same; code only grows. -/
structure CKeep (k : Nat) (I : Nat → Prop) (s s' : CS) : Prop where
  le : s.program.length ≤ s'.program.length
  agree : ∀ j, j < k → s'.program[j]? = s.program[j]?
  fpcs : ∀ i, ¬ I i → s'.functionPcs[i]? = s.functionPcs[i]?
  fpcsLen : s'.functionPcs.length = s.functionPcs.length
  lines : LKeep s.lines s'.lines

theorem CKeep.refl (k : Nat) (I : Nat → Prop) (s : CS) : CKeep k I s s := ⟨Nat.le_refl _, fun _ _ => rfl, fun _ _ => rfl, rfl, .refl _⟩

theorem CKeep.trans {k : Nat} {I : Nat → Prop} {s s1 s2 : CS} (a : CKeep k I s s1) (b : CKeep k I s1 s2) : CKeep k I s s2 :=
  ⟨Nat.le_trans a.le b.le, fun j hj => (b.agree j hj).trans (a.agree j hj), fun i hi => (b.fpcs i hi).trans (a.fpcs i hi),
    b.fpcsLen.trans a.fpcsLen, a.lines.trans b.lines⟩

/-- From a state with at least `k` bytes, the action keeps them; its result satisfies `Q`. -/
def CHoare {α : Type} (k : Nat) (I : Nat → Prop) (x : CG α) (Q : α → Prop) : Prop :=
  ∀ s : CS, k ≤ s.program.length → match x s with
    | .ok a s' => CKeep k I s s' ∧ Q a
    | .err s' => CKeep k I s s'
    | _ => True

section
variable {α β : Type} {k : Nat} {I : Nat → Prop}

theorem CHoare.bind {x : CG α} {f : α → CG β} {Q : α → Prop} {R : β → Prop} (hx : CHoare k I x Q)
    (hf : ∀ a, Q a → CHoare k I (f a) R) : CHoare k I (x >>= f) R := by
  intro s hs
  have h1 := hx s hs
  show match (match x s with | .ok a s => f a s | .err s => .err s | .abort => .abort | .ub => .ub) with
    | .ok a s' => CKeep k I s s' ∧ R a | .err s' => CKeep k I s s' | _ => True
  cases hxs : x s with
  | ok a s1 =>
    rw [hxs] at h1
    have h2 := hf a h1.2 s1 (Nat.le_trans hs h1.1.le)
    simp only
    cases hfs : f a s1 with
    | ok b s2 => rw [hfs] at h2; exact ⟨h1.1.trans h2.1, h2.2⟩
    | err s2 => rw [hfs] at h2; exact h1.1.trans h2
    | _ => trivial
  | err s1 => rw [hxs] at h1; exact h1
  | _ => trivial

theorem CHoare.pure {a : α} {Q : α → Prop} (h : Q a) : CHoare k I (Pure.pure a : CG α) Q := fun s _ => ⟨.refl _ _ s, h⟩

theorem CHoare.mono {x : CG α} {Q R : α → Prop} (h : CHoare k I x Q) (hq : ∀ a, Q a → R a) : CHoare k I x R := by
  intro s hs
  have := h s hs
  cases hx : x s with
  | ok a s' => rw [hx] at this; exact ⟨this.1, hq _ this.2⟩
  | err s' => rw [hx] at this; exact this
  | _ => trivial

theorem CHoare.any {x : CG α} {Q : α → Prop} (h : CHoare k I x Q) : CHoare k I x fun _ => True := h.mono fun _ _ => trivial

theorem ch_err {Q : α → Prop} : CHoare k I (reportError : CG α) Q := fun s _ => .refl _ _ s
theorem ch_fail {Q : α → Prop} : CHoare k I (failAssert : CG α) Q := fun _ _ => trivial
theorem ch_ub {Q : α → Prop} : CHoare k I (undefined : CG α) Q := fun _ _ => trivial

theorem ch_append {s : CS} (hs : k ≤ s.program.length) (bs : List UInt8) : CKeep k I s { s with program := s.program ++ bs } :=
  ⟨by simp, fun j hj => List.getElem?_append_left (by omega), fun _ _ => rfl, rfl, .refl _⟩

theorem ch_byte (b : UInt8) : CHoare k I (genByte b) fun _ => True := fun _ hs => ⟨ch_append hs _, trivial⟩
theorem ch_op (o : Op) : CHoare k I (genOp o) fun _ => True := ch_byte _

theorem ch_value (n v : Nat) (hn : 0 < n) : CHoare k I (genValue n v) fun p => k ≤ p := fun s hs =>
  ⟨by
    have := ch_append (k := k) (I := I) hs (List.replicate (alignUp s.program.length n - s.program.length) Op.misaligned.toByte ++ leBytes n v)
    simpa [genValue, List.append_assoc] using this, Nat.le_trans hs (le_alignUp _ _ hn)⟩

theorem ch_count : CHoare k I programCount fun p => k ≤ p := fun s hs => ⟨.refl _ _ s, hs⟩

theorem ch_jump (o : Op) (d : Nat) : CHoare k I (genJump o d) fun p => k ≤ p :=
  (ch_op o).bind fun _ _ => ch_value 4 d (by omega)

theorem ch_patch {p : Nat} (v : Nat) (hp : k ≤ p) : CHoare k I (patchJump p v) fun _ => True := by
  intro s hs
  unfold patchJump
  by_cases h1 : p % 4 ≠ 0
  · rw [if_pos h1]; trivial
  · rw [if_neg h1]
    by_cases h2 : p + 4 ≤ s.program.length
    · rw [if_pos h2]
      exact ⟨⟨by simp [writeAt_length], fun j hj => writeAt_other _ _ _ _ (.inl (by omega)), fun _ _ => rfl, rfl, .refl _⟩, trivial⟩
    · rw [if_neg h2]; trivial

theorem ch_if {c : Prop} [Decidable c] {x y : CG α} {Q : α → Prop} (hx : c → CHoare k I x Q) (hy : ¬ c → CHoare k I y Q) :
    CHoare k I (if c then x else y) Q := by
  by_cases h : c
  · rw [if_pos h]; exact hx h
  · rw [if_neg h]; exact hy h

theorem ch_check {c : Prop} [Decidable c] {x : CG Unit} {f : Unit → CG α} {Q : α → Prop}
    (hx : CHoare k I x fun _ => True) (hf : CHoare k I (f ()) Q) : CHoare k I (if c then x >>= f else f ()) Q :=
  ch_if (fun _ => hx.bind fun _ _ => hf) fun _ => hf

theorem ch_pushInt (i : BitVec 64) : CHoare k I (genPushInt i) fun _ => True := by
  unfold genPushInt
  exact ch_if (fun _ => ch_op _) fun _ => ch_if (fun _ => ch_op _) fun _ => (ch_op _).bind fun _ _ =>
    (ch_value 8 _ (by omega)).bind fun _ _ => .pure trivial

theorem ch_pushFloat (i : BitVec 64) : CHoare k I (genPushFloat i) fun _ => True :=
  (ch_op _).bind fun _ _ => (ch_value 8 _ (by omega)).bind fun _ _ => .pure trivial

theorem ch_pushString (i : Nat) : CHoare k I (genPushString i) fun _ => True := by
  unfold genPushString
  exact ch_if (fun _ => (ch_op _).bind fun _ _ => ch_byte _) fun _ => (ch_op _).bind fun _ _ =>
    (ch_value 4 _ (by omega)).bind fun _ _ => .pure trivial

theorem ch_call (n : Nat) (f : FnSym) : CHoare k I (genCall n f) fun _ => True := by
  cases f with
  | foreign i m va =>
    refine (ch_op _).bind fun _ _ => ch_check ch_err ?_
    exact (ch_byte _).bind fun _ _ => (ch_value 4 _ (by omega)).bind fun _ _ => .pure trivial
  | tiny i => exact (ch_op _).bind fun _ _ => (ch_byte _).bind fun _ _ => (ch_value 4 _ (by omega)).bind fun _ _ => .pure trivial

theorem ch_getVar (s : Option VarSym) : CHoare k I (genGetVar s) fun _ => True := by
  cases s with
  | none => exact ch_err
  | some s =>
    cases s with
    | glob i => exact (ch_op _).bind fun _ _ => (ch_value 4 _ (by omega)).bind fun _ _ => .pure trivial
    | loc i =>
      unfold genGetVar
      exact ch_if (fun _ => (ch_op _).bind fun _ _ => (ch_value 4 _ (by omega)).bind fun _ _ => .pure trivial)
        fun _ => (ch_op _).bind fun _ _ => ch_byte _
    | const c =>
      cases c with
      | str i => exact ch_pushString i
      | bool b => exact ch_op _
      | int i => exact ch_pushInt i
      | float i => exact ch_pushFloat i

theorem ch_field (g : Globals) (t : Option Tag) (n : Name) : CHoare k I (fieldIndex g t n) fun _ => True := by
  unfold fieldIndex
  split
  · split
    · exact ch_fail
    · simp only
      exact ch_if (fun _ => .pure trivial) fun _ => ch_fail
  · exact ch_fail

end

mutual
theorem ch_E {k : Nat} {I : Nat → Prop} (g : Globals) (e : Expr) : CHoare k I (compileE g e) fun _ => True := by
  match e with
  | .null => rw [compileE]; exact ch_op _
  | .bool b => rw [compileE]; exact ch_op _
  | .int i => rw [compileE]; exact ch_pushInt _
  | .char i => rw [compileE]; exact ch_pushInt _
  | .float i => rw [compileE]; exact ch_pushFloat _
  | .str i => rw [compileE]; exact ch_pushString _
  | .id n s => rw [compileE]; exact ch_getVar _
  | .index arr elem none s => rw [compileE]; exact ch_fail
  | .index arr elem (some f) s =>
    rw [compileE]
    exact (ch_E g arr).bind fun _ _ => (ch_E g elem).bind fun _ _ => (ch_call 2 f).bind fun _ _ => ch_op _
  | .dot l field t =>
    rw [compileE]
    exact (ch_field g t field).bind fun _ _ => (ch_E g l).bind fun _ _ => (ch_op _).bind fun _ _ => ch_byte _
  | .call n as =>
    rw [compileE]
    refine (ch_args g 0 as).bind fun m _ => ?_
    split
    · exact ch_err
    · exact (ch_call m _).bind fun _ _ => ch_op _
  | .ctor n names as =>
    rw [compileE]
    split
    · exact ch_fail
    · cases names with
      | none => exact (ch_list g as).bind fun _ _ => (ch_op _).bind fun _ _ => ch_byte _
      | some names => exact (ch_fields g names as _).bind fun _ _ => (ch_op _).bind fun _ _ => ch_byte _
  | .cast e t => rw [compileE]; exact ch_E g e
  | .paren e => rw [compileE]; exact ch_E g e
  | .bin op l r =>
    have hl := ch_E (k := k) (I := I) g l
    have hr := ch_E (k := k) (I := I) g r
    unfold compileE
    split
    · exact hl.bind fun _ _ => ch_if (fun _ => ch_op _) fun _ => hr.bind fun _ _ => ch_op _
    · exact hl.bind fun _ _ => ch_if (fun _ => ch_op _) fun _ => hr.bind fun _ _ => ch_op _
    · exact hl.bind fun _ _ => hr.bind fun _ _ => (ch_op _).bind fun _ _ => ch_op _
    · exact hl.bind fun _ _ => (ch_jump _ _).bind fun p hp => hr.bind fun _ _ => (ch_jump _ _).bind fun q hq =>
        ch_count.bind fun _ _ => (ch_patch _ hp).bind fun _ _ => (ch_op _).bind fun _ _ => ch_count.bind fun _ _ => ch_patch _ hq
    · exact hl.bind fun _ _ => (ch_jump _ _).bind fun p hp => (ch_op _).bind fun _ _ => (ch_jump _ _).bind fun q hq =>
        ch_count.bind fun _ _ => (ch_patch _ hp).bind fun _ _ => hr.bind fun _ _ => ch_count.bind fun _ _ => ch_patch _ hq
    · split
      · exact hl.bind fun _ _ => hr.bind fun _ _ => ch_op _
      · exact ch_err
  | .un op e =>
    have he := ch_E (k := k) (I := I) g e
    unfold compileE
    split
    · split
      · exact (ch_op _).bind fun _ _ => ch_check ch_ub ((ch_value 8 _ (by omega)).bind fun _ _ => .pure trivial)
      · exact he.bind fun _ _ => (ch_op _).bind fun _ _ => (ch_value 8 _ (by omega)).bind fun _ _ => ch_op _
    · exact he.bind fun _ _ => ch_op _
    · exact ch_err
  | .ite c a b =>
    rw [compileE]
    exact (ch_E g c).bind fun _ _ => (ch_jump _ _).bind fun p hp => (ch_E g a).bind fun _ _ => (ch_jump _ _).bind fun q hq =>
        ch_count.bind fun _ _ => (ch_patch _ hp).bind fun _ _ => (ch_E g b).bind fun _ _ => ch_count.bind fun _ _ => ch_patch _ hq

theorem ch_args {k : Nat} {I : Nat → Prop} (g : Globals) (n : Nat) (es : List Expr) : CHoare k I (compileArgs g n es) fun _ => True := by
  match es with
  | [] => rw [compileArgs]; exact .pure trivial
  | e :: es =>
    rw [compileArgs]
    exact ch_check ch_err ((ch_E g e).bind fun _ _ => ch_args g (n + 1) es)

theorem ch_list {k : Nat} {I : Nat → Prop} (g : Globals) (es : List Expr) : CHoare k I (compileList g es) fun _ => True := by
  match es with
  | [] => rw [compileList]; exact .pure trivial
  | e :: es => rw [compileList]; exact (ch_E g e).bind fun _ _ => ch_list g es

theorem ch_named {k : Nat} {I : Nat → Prop} (g : Globals) (f : Name) (ns : List Name) (es : List Expr) :
    CHoare k I (compileNamed g f ns es) fun _ => True := by
  match ns, es with
  | ns, [] => rw [compileNamed]; exact .pure trivial
  | [], _ :: _ => rw [compileNamed]; exact ch_fail
  | n :: ns, e :: es => rw [compileNamed]; exact ch_if (fun _ => ch_E g e) fun _ => ch_named g f ns es

theorem ch_fields {k : Nat} {I : Nat → Prop} (g : Globals) (ns : List Name) (es : List Expr) (fs : List Name) :
    CHoare k I (compileFields g ns es fs) fun _ => True := by
  match fs with
  | [] => rw [compileFields]; exact .pure trivial
  | f :: fs => rw [compileFields]; exact (ch_named g f ns es).bind fun _ _ => ch_fields g ns es fs
end

theorem ch_rhs {k : Nat} {I : Nat → Prop} (g : Globals) (op : Tok) (l r : Expr) : CHoare k I (compileRhs g op l r) fun _ => True := by
  unfold compileRhs
  split
  · exact ch_E g r
  · exact (ch_E g l).bind fun _ _ => ch_if (fun _ => ch_op _) fun _ => (ch_E g r).bind fun _ _ => ch_op _

theorem ch_store {k : Nat} {I : Nat → Prop} (g : Globals) (l : Expr) : CHoare k I (compileStore g l) fun _ => True := by
  unfold compileStore
  split
  · exact (ch_op _).bind fun _ _ => (ch_value 4 _ (by omega)).bind fun _ _ => .pure trivial
  · exact (ch_op _).bind fun _ _ => (ch_value 4 _ (by omega)).bind fun _ _ => .pure trivial
  · exact ch_err
  · split
    · exact ch_err
    · exact ch_call 3 _
  · exact (ch_field g _ _).bind fun _ _ => (ch_E g _).bind fun _ _ => (ch_op _).bind fun _ _ => ch_byte _
  · exact ch_fail

theorem ch_assign {k : Nat} {I : Nat → Prop} (g : Globals) (op : Tok) (l r : Expr) :
    CHoare k I (compileAssign g op l r) fun _ => True := by
  unfold compileAssign
  refine ch_if (fun _ => .pure trivial) fun _ => ch_if (fun _ => ?_) fun _ => ch_err
  refine ch_check ch_err ?_
  have h := (ch_rhs (k := k) (I := I) g op l r).bind fun _ _ => ch_store g l
  split
  · exact (ch_E g _).bind fun _ _ => (ch_E g _).bind fun _ _ => h
  · exact h

theorem ch_line {k : Nat} {I : Nat → Prop} (n : Nat) : CHoare k I (addLine n) fun _ => True := fun s _ =>
  ⟨⟨Nat.le_refl _, fun _ _ => rfl, fun _ _ => rfl, rfl, lkeep_add _ _⟩, trivial⟩

mutual
/-- The places of the breaks and continues which are left to patch are at or after `k`. -/
def PatchGe (k : Nat) : Stmt → Prop
  | .node _ s => PatchGe k s
  | .ifThen _ body => PatchGe k body
  | .ifElse _ body alt => PatchGe k body ∧ PatchGe k alt
  | .block ss => PatchGeL k ss
  | .brk p => k ≤ p
  | .cont p => k ≤ p
  | _ => True
/-- See `PatchGe`. -/
def PatchGeL (k : Nat) : List Stmt → Prop
  | [] => True
  | s :: ss => PatchGe k s ∧ PatchGeL k ss
end

mutual
theorem ch_patchBC {k : Nat} {I : Nat → Prop} (b c : Nat) : ∀ s : Stmt, PatchGe k s → CHoare k I (patchBC b c s) fun _ => True
  | .node _ s, h => by rw [patchBC]; exact ch_patchBC b c s (by simpa [PatchGe] using h)
  | .ifThen _ s, h => by rw [patchBC]; exact ch_patchBC b c s (by simpa [PatchGe] using h)
  | .ifElse _ s t, h => by
    rw [patchBC]
    simp only [PatchGe] at h
    exact (ch_patchBC b c s h.1).bind fun _ _ => ch_patchBC b c t h.2
  | .block ss, h => by rw [patchBC]; exact ch_patchBCs b c ss (by simpa [PatchGe] using h)
  | .brk p, h => by rw [patchBC]; exact ch_patch _ (by simpa [PatchGe] using h)
  | .cont p, h => by rw [patchBC]; exact ch_patch _ (by simpa [PatchGe] using h)
  | .call _ _, _ | .assign _ _ _, _ | .proc _ _ _ _, _ | .while _ _, _ | .for _ _ _ _, _ | .ret _, _ | .use, _ | .expr _, _ => by
    simp only [patchBC]; exact .pure trivial
theorem ch_patchBCs {k : Nat} {I : Nat → Prop} (b c : Nat) : ∀ s : List Stmt, PatchGeL k s → CHoare k I (patchBCs b c s) fun _ => True
  | [], _ => by rw [patchBCs]; exact .pure trivial
  | s :: ss, h => by
    rw [patchBCs]
    simp only [PatchGeL] at h
    exact (ch_patchBC b c s h.1).bind fun _ _ => ch_patchBCs b c ss h.2
end

mutual
/-- Code generation keeps the code before, and the entries of functions which are not in the statement. -/
theorem ch_S {k : Nat} {I : Nat → Prop} (g : Globals) (s : Stmt) (hI : ∀ i ∈ ids s, I i) :
    CHoare k I (compileS g s) (PatchGe k) := by
  match s with
  | .node line s =>
    rw [compileS]
    exact (ch_line _).bind fun _ _ => (ch_S g s (by simpa [ids, procs] using hI)).bind fun _ h => .pure (by simpa [PatchGe] using h)
  | .call n as =>
    rw [compileS]
    refine CHoare.bind (Q := fun _ => True) ?_ fun _ _ => .pure (by simp [PatchGe])
    unfold compileCall
    refine (ch_args g 0 as).bind fun m _ => ?_
    split
    · exact ch_err
    · exact ch_call m _
  | .block ss =>
    rw [compileS]
    exact (ch_Ss g ss (by simpa [ids, procs] using hI)).bind fun _ h => .pure (by simpa [PatchGe] using h)
  | .assign op l r => rw [compileS]; exact (ch_assign g op l r).bind fun _ _ => .pure (by simp [PatchGe])
  | .proc i na nl b =>
    rw [compileS]
    refine (ch_jump _ _).bind fun p hp => ch_count.bind fun q _ => CHoare.bind (Q := fun _ => True) ?_ fun _ _ => ?_
    · intro s hs
      unfold setFunctionPc
      by_cases hi : i < s.functionPcs.length
      · rw [if_pos hi]
        refine ⟨⟨Nat.le_refl _, fun _ _ => rfl, fun j hj => ?_, by simp, .refl _⟩, trivial⟩
        show (s.functionPcs.set i q)[j]? = _
        rw [List.getElem?_set_ne]
        intro e
        subst e
        exact hj (hI i (by simp [ids, procs]))
      · rw [if_neg hi]; trivial
    · refine ch_check ch_err ?_
      refine ch_if (fun _ => (ch_op _).bind fun _ _ => (ch_byte _).bind fun _ _ => ?_) fun _ => ?_ <;>
      exact (ch_S g b fun j hj => hI j (by simp only [ids, procs, List.map_cons, List.mem_cons]; exact .inr hj)).bind fun _ _ =>
        (ch_op _).bind fun _ _ => ch_count.bind fun _ _ => (ch_patch _ hp).bind fun _ _ => .pure (by simp [PatchGe])
  | .ifThen c b =>
    rw [compileS]
    exact (ch_E g c).bind fun _ _ => (ch_jump _ _).bind fun p hp => (ch_S g b (by simpa [ids, procs] using hI)).bind fun _ h =>
      ch_count.bind fun _ _ => (ch_patch _ hp).bind fun _ _ => .pure (by simpa [PatchGe] using h)
  | .ifElse c b a =>
    rw [compileS]
    exact (ch_E g c).bind fun _ _ => (ch_jump _ _).bind fun p hp =>
      (ch_S g b fun j hj => hI j (by simp only [ids, procs, List.map_append, List.mem_append]; exact .inl hj)).bind fun _ h =>
      (ch_jump _ _).bind fun q hq => ch_count.bind fun _ _ => (ch_patch _ hp).bind fun _ _ =>
      (ch_S g a fun j hj => hI j (by simp only [ids, procs, List.map_append, List.mem_append]; exact .inr hj)).bind fun _ h' =>
      ch_count.bind fun _ _ => (ch_patch _ hq).bind fun _ _ => .pure (by simp only [PatchGe]; exact ⟨h, h'⟩)
  | .while c b =>
    rw [compileS]
    exact ch_count.bind fun _ _ => (ch_E g c).bind fun _ _ => (ch_jump _ _).bind fun p hp =>
      (ch_S g b (by simpa [ids, procs] using hI)).bind fun _ h => (ch_jump _ _).bind fun _ _ =>
      ch_count.bind fun _ _ => (ch_patch _ hp).bind fun _ _ => ch_count.bind fun _ _ => (ch_patchBC _ _ _ h).bind fun _ _ =>
      .pure (by simp [PatchGe])
  | .for i c st b =>
    have h3 : ∀ j, (j ∈ ids i ∨ j ∈ ids b ∨ j ∈ ids st) → I j := fun j hj => hI j (by
      simp only [ids, procs, List.map_append, List.mem_append] at hj ⊢
      rcases hj with h | h | h
      · exact .inl (.inl h)
      · exact .inl (.inr h)
      · exact .inr h)
    rw [compileS]
    exact (ch_S g i fun j hj => h3 j (.inl hj)).bind fun _ _ => ch_count.bind fun _ _ => (ch_E g c).bind fun _ _ =>
      (ch_jump _ _).bind fun p hp =>
      (ch_S g b fun j hj => h3 j (.inr (.inl hj))).bind fun _ h => ch_count.bind fun _ _ =>
      (ch_S g st fun j hj => h3 j (.inr (.inr hj))).bind fun _ _ => (ch_jump _ _).bind fun _ _ =>
      ch_count.bind fun _ _ => (ch_patch _ hp).bind fun _ _ => ch_count.bind fun _ _ => (ch_patchBC _ _ _ h).bind fun _ _ =>
      .pure (by simp [PatchGe])
  | .ret none => rw [compileS]; exact (ch_op _).bind fun _ _ => .pure (by simp [PatchGe])
  | .ret (some e) =>
    rw [compileS]
    exact (ch_E g e).bind fun _ _ => (ch_op _).bind fun _ _ => .pure (by simp [PatchGe])
  | .brk _ => rw [compileS]; exact (ch_jump _ _).bind fun _ h => .pure (by simpa [PatchGe] using h)
  | .cont _ => rw [compileS]; exact (ch_jump _ _).bind fun _ h => .pure (by simpa [PatchGe] using h)
  | .use => rw [compileS]; exact .pure (by simp [PatchGe])
  | .expr e => rw [compileS]; exact ch_err

theorem ch_Ss {k : Nat} {I : Nat → Prop} (g : Globals) (ss : List Stmt) (hI : ∀ i ∈ idsL ss, I i) :
    CHoare k I (compileSs g ss) (PatchGeL k) := by
  match ss with
  | [] => rw [compileSs]; exact .pure (by simp [PatchGeL])
  | s :: ss =>
    rw [compileSs]
    exact (ch_S g s fun j hj => hI j (by simp only [idsL, procsL, List.map_append, List.mem_append]; exact .inl hj)).bind
      fun _ h => (ch_Ss g ss fun j hj => hI j (by simp only [idsL, procsL, List.map_append, List.mem_append]; exact .inr hj)).bind
      fun _ h' => .pure (by simp only [PatchGeL]; exact ⟨h, h'⟩)
end

end Tiny
