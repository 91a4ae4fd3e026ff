import Verif.Proofs.Initialized
import Verif.Proofs.FrontLe

/-!
# When the type checker fails

It cannot fail an assertion nor have undefined behaviour on trees which read only variables whose type is known.
-/

namespace Tiny
open Spec

/-- The type exists. -/
def TagOk (g : Front) : Tag → Prop
  | .named n => ∃ x ∈ g.syms, (x.asType n).isSome = true
  | .shadowed n => g.hidden n = true ∧ ∃ x ∈ g.syms, x.isStruct n = true
  | _ => True

/-- The types a symbol mentions (those of constants are built-in ones). -/
def Sym.tags : Sym → List Tag
  | .glob v => v.tag.toList
  | .func fi => (fi.args ++ fi.locals).filterMap VarInfo.tag ++ fi.ret.toList
  | .foreign _ _ _ _ r => [r]
  | .struct _ _ fs => fs.map Prod.snd
  | _ => []

/-- At most 255 fields. -/
def Sym.small : Sym → Prop
  | .struct _ _ fs => fs.length ≤ 255
  | _ => True

/-- The types mentioned in the table exist, structs have at most 255 fields. -/
def TypesOk (g : Front) : Prop := ∀ x ∈ g.syms, (∀ t ∈ x.tags, TagOk g t) ∧ x.small

/-- Every struct is defined. -/
def AllDefined (g : Front) : Prop := ∀ x ∈ g.syms, x.undefinedStruct = false

/-- There is a variable, argument or constant, and its type is known. -/
def TypedAt (g : Front) (d : Place) : Prop := ∃ s t, symInfo { g with currFunc := d.1 } d.2 = .ok (s, some t)

/-- What is known about the table: types, structs, variables, functions; variables whose type is known. -/
structure Facts where
  typ : Tag → Prop
  str : Name → Prop
  held : Place → Prop
  fn : Nat → Prop
  var : Place → Prop

/-- After some declarations. -/
def Facts.add (κ : Facts) (ds : List Place) : Facts := { κ with var := fun d => κ.var d ∨ d ∈ ds }

theorem Facts.add_nil (κ : Facts) : κ.add [] = κ := by simp [Facts.add]
theorem Facts.add_append (κ : Facts) (ds es : List Place) : κ.add (ds ++ es) = (κ.add ds).add es := by
  simp [Facts.add, or_assoc]

mutual
/-- The expression reads only variables whose type is known, and uses only existing types and operators. -/
def OkE (κ : Facts) (c : Cur) : CExpr → Prop
  | .id _ (some r) => κ.var (place c r)
  | .call _ as => OkEs κ c as
  | .paren e => OkE κ c e
  | .bin op l r => (level op).isSome = true ∧ OkE κ c l ∧ OkE κ c r
  | .un op e => (op = .minus ∨ op = .bang) ∧ OkE κ c e
  | .dot l _ => OkE κ c l
  | .index a i => OkE κ c a ∧ OkE κ c i
  | .ctor n _ as => κ.str n ∧ OkEs κ c as
  | .cast e t => κ.typ t ∧ OkE κ c e
  | .ite d a b => OkE κ c d ∧ OkE κ c a ∧ OkE κ c b
  | _ => True
/-- See `OkE`. -/
def OkEs (κ : Facts) (c : Cur) : List CExpr → Prop
  | [] => True
  | e :: es => OkE κ c e ∧ OkEs κ c es
end

/-- The facts are true of the table. -/
structure Good (κ : Facts) (g : Front) : Prop where
  tables : Tables g
  types : TypesOk g
  closed : AllDefined g
  typ : ∀ t, κ.typ t → TagOk g t
  str : ∀ n, κ.str n → ∃ x ∈ g.syms, x.isStruct n = true
  held : ∀ d, κ.held d → tagOf g d ≠ none
  fn : ∀ i, κ.fn i → HasFn g i
  var : ∀ d, κ.var d → TypedAt g d

/-! ## Expressions -/

/-- A check does not crash, and its result satisfies `Q`. -/
def ChkOk {α : Type} (x : Chk α) (Q : α → Prop) : Prop :=
  match x with
  | .ok a => Q a
  | .err => True
  | .abort => False
  | .ub => False

theorem ChkOk.bind {α β : Type} {x : Chk α} {f : α → Chk β} {Q : α → Prop} {R : β → Prop} (hx : ChkOk x Q)
    (hf : ∀ a, x = .ok a → Q a → ChkOk (f a) R) : ChkOk (x >>= f) R := by
  cases x with
  | ok a => exact hf a rfl hx
  | err => exact trivial
  | abort => exact hx
  | ub => exact hx

theorem ChkOk.if {α : Type} {c : Prop} [Decidable c] {x y : Chk α} {Q : α → Prop} (hx : c → ChkOk x Q) (hy : ¬ c → ChkOk y Q) :
    ChkOk (if c then x else y) Q := by
  by_cases h : c
  · rw [if_pos h]; exact hx h
  · rw [if_neg h]; exact hy h

theorem chk_err {α : Type} {Q : α → Prop} : ChkOk (.err : Chk α) Q := trivial
theorem chk_ok {α : Type} {a : α} {Q : α → Prop} (h : Q a) : ChkOk (.ok a : Chk α) Q := h

theorem mem_tags {x : Sym} {g : Front} (h : TypesOk g) (hx : x ∈ g.syms) {t : Tag} (ht : t ∈ x.tags) : TagOk g t := (h x hx).1 t ht

theorem constTag_ok (g : Front) (c : ConstVal) : TagOk g (constTag c) := by cases c <;> exact trivial

/-- The type of a variable exists. -/
theorem symInfo_tag {g : Front} (ht : Tables g) (hw : TypesOk g) {r : SymRef} {s : VarSym} {t : Tag}
    (h : symInfo g r = .ok (s, some t)) : TagOk g t := by
  cases r with
  | glob i =>
    simp only [symInfo] at h
    cases hx : g.syms[i]? with
    | none => rw [hx] at h; cases h
    | some x =>
      rw [hx] at h
      cases x <;> simp only [reduceCtorEq, Chk.ok.injEq, Prod.mk.injEq] at h
      · exact mem_tags hw (List.mem_of_getElem? hx) (by simp [Sym.tags, h.2])
      · rename_i n t' c
        have := ht.consts _ _ _ (List.mem_of_getElem? hx)
        have e := h.2
        cases e
        rw [this]
        exact constTag_ok g c
  | loc k =>
    simp only [symInfo] at h
    split at h <;> try cases h
    split at h <;> try cases h
    rename_i fi hfi
    cases hk : fi.locals[k]? with
    | none => rw [hk] at h; cases h
    | some v =>
      rw [hk] at h
      simp only [Chk.ok.injEq, Prod.mk.injEq] at h
      refine mem_tags hw (List.mem_of_getElem? hfi) ?_
      simp only [Sym.tags, List.mem_append, List.mem_filterMap]
      exact .inl ⟨v, .inr (List.mem_of_getElem? hk), h.2⟩
  | arg k =>
    simp only [symInfo] at h
    split at h <;> try cases h
    split at h <;> try cases h
    rename_i fi hfi
    cases hk : fi.args[k]? with
    | none => rw [hk] at h; cases h
    | some v =>
      rw [hk] at h
      simp only [Chk.ok.injEq, Prod.mk.injEq] at h
      refine mem_tags hw (List.mem_of_getElem? hfi) ?_
      simp only [Sym.tags, List.mem_append, List.mem_filterMap]
      exact .inl ⟨v, .inl (List.mem_of_getElem? hk), h.2⟩

theorem symInfo_place {g : Front} {r : SymRef} : symInfo { g with currFunc := (place g.currFunc r).1 } (place g.currFunc r).2 = symInfo g r := by
  cases r <;> rfl

/-- The result type of a function exists. -/
theorem sig_ret {g : Front} (ht : Tables g) (hw : TypesOk g) {n : Name} {x : Sym} (h : referenceFunction g.syms n = some x) :
    ∃ ps va r gf, x.sig = some (ps, va, some r) ∧ TagOk g r ∧ (∀ p ∈ ps, p ≠ none) ∧ x.fnSym = some gf := by
  have hm := List.mem_of_find?_eq_some h
  have hp := List.find?_some h
  cases x <;> simp only [Sym.isFunc, Bool.false_eq_true] at hp
  · rename_i fi
    obtain ⟨r, hr⟩ := Option.isSome_iff_exists.1 (ht.rets fi hm)
    refine ⟨fi.args.map VarInfo.tag, false, r, .tiny fi.index, by simp [Sym.sig, hr], mem_tags hw hm (by simp [Sym.tags, hr]), ?_, rfl⟩
    intro p hp' e
    obtain ⟨v, hv, rfl⟩ := List.mem_map.1 hp'
    have := ht.args fi hm v hv
    simp [e] at this
  · refine ⟨_, _, _, _, rfl, mem_tags hw hm (by simp [Sym.tags]), ?_, rfl⟩
    intro p hp' e
    obtain ⟨v, hv, rfl⟩ := List.mem_map.1 hp'
    cases e

theorem chk_binTag {op : Tok} (h : (level op).isSome = true) (l r : Tag) (g : Front) : ChkOk (binTag op l r) (TagOk g) := by
  cases op <;> simp [level] at h <;> (unfold binTag; refine ChkOk.if (fun _ => chk_err) fun _ => chk_ok ?_)
  all_goals first | exact trivial | (split <;> exact trivial)

theorem chk_unTag {op : Tok} (h : op = .minus ∨ op = .bang) {t : Tag} {g : Front} (ht : TagOk g t) : ChkOk (unTag op t) (TagOk g) := by
  rcases h with rfl | rfl
  · exact ChkOk.if (fun _ => chk_err) fun _ => chk_ok ht
  · exact ChkOk.if (fun _ => chk_err) fun _ => chk_ok trivial

theorem struct_info {l : List Sym} {n : Name} (h : ∃ x ∈ l, x.isStruct n = true) : ∃ d fs, l.findSome? (·.structInfo n) = some (d, fs) := by
  obtain ⟨x, hx, h⟩ := h
  cases hf : l.findSome? (·.structInfo n) with
  | some p => exact ⟨p.1, p.2, rfl⟩
  | none =>
    rw [List.findSome?_eq_none_iff] at hf
    have := hf x hx
    cases x <;> simp only [Sym.isStruct, Bool.false_eq_true, beq_iff_eq] at h
    simp [Sym.structInfo, h] at this

/-- The fields of a struct. -/
theorem fields_info {g : Front} (hw : TypesOk g) (hc : AllDefined g) {n : Name} (h : ∃ x ∈ g.syms, x.isStruct n = true) :
    ∃ fs, g.syms.findSome? (·.structInfo n) = some (true, fs) ∧ (∀ f ∈ fs, TagOk g f.2) ∧ fs.length ≤ 255 := by
  obtain ⟨d, fs, e⟩ := struct_info h
  obtain ⟨x, hx, e'⟩ := List.exists_of_findSome?_eq_some e
  cases x <;> simp only [Sym.structInfo, reduceCtorEq] at e'
  rename_i m d' fs'
  split at e'
  · cases e'
    have hd := hc _ hx
    simp only [Sym.undefinedStruct, Bool.not_eq_eq_eq_not, Bool.not_false] at hd
    subst hd
    have := hw _ hx
    exact ⟨fs, e, fun f hf => this.1 _ (List.mem_map.2 ⟨f, hf, rfl⟩), this.2⟩
  · cases e'

theorem hidden_struct {g : Front} {n : Name} (h : ∃ x ∈ g.syms, (x.asType n).isSome = true) (hh : g.hidden n = false) :
    ∃ x ∈ g.syms, x.isStruct n = true := by
  obtain ⟨x, hx, h⟩ := h
  unfold Front.hidden at hh
  cases hf : g.syms.find? (fun x => (x.asType n).isSome) with
  | none => rw [List.find?_eq_none] at hf; exact absurd h (hf x hx)
  | some y =>
    rw [hf] at hh
    have hp := List.find?_some hf
    refine ⟨y, List.mem_of_find?_eq_some hf, ?_⟩
    cases y <;> simp only [Sym.asType, Option.isSome_none, Bool.false_eq_true, reduceCtorEq] at hp hh ⊢
    split at hp
    · simpa [Sym.isStruct]
    · simp at hp

theorem chk_field {g : Front} (hw : TypesOk g) (hc : AllDefined g) {n : Name} (h : ∃ x ∈ g.syms, x.isStruct n = true) (field : Name) :
    ChkOk (fieldTag g n field) (TagOk g) := by
  obtain ⟨fs, e, h1, -⟩ := fields_info hw hc h
  unfold fieldTag
  rw [e]
  simp only
  cases hf : fs.find? (fun x => decide (x.1 = field)) with
  | none => exact chk_err
  | some p => exact chk_ok (h1 p (List.mem_of_find?_eq_some hf))

theorem chk_dot {g : Front} (hw : TypesOk g) (hc : AllDefined g) {t : Tag} (h : TagOk g t) (field : Name) :
    ChkOk (dotTag g t field) (TagOk g) := by
  unfold dotTag
  cases t with
  | named n =>
    refine ChkOk.if (fun _ => chk_err) fun hh => chk_field hw hc (hidden_struct h (by simpa using hh)) field
  | shadowed n =>
    refine ChkOk.if (fun _ => chk_field hw hc h.2 field) fun hh => absurd h.1 hh
  | _ => exact chk_err

theorem structTag_ok {g : Front} {n : Name} (h : ∃ x ∈ g.syms, x.isStruct n = true) : TagOk g (structTag g n) := by
  unfold structTag
  split
  · rename_i hh; exact ⟨hh, h⟩
  · obtain ⟨x, hx, h⟩ := h
    refine ⟨x, hx, ?_⟩
    cases x <;> simp only [Sym.isStruct, Bool.false_eq_true, beq_iff_eq] at h
    simp [Sym.asType, h]

theorem chk_index {g : Front} (ht : Tables g) (hw : TypesOk g) (t : Tag) : ChkOk (indexFuncs g t) fun p => TagOk g p.2.2 := by
  unfold indexFuncs
  cases hf : referenceFunction g.syms (indexName t "_get_index") with
  | none => exact chk_err
  | some x =>
    obtain ⟨ps, va, r, gf, h1, h2, -, h3⟩ := sig_ret ht hw hf
    simp only [h1, h3]
    exact chk_ok h2

theorem chk_arg (va : Bool) (t : Tag) {ps : List (Option Tag)} (h : ∀ p ∈ ps, p ≠ none) :
    ChkOk (checkArg va t ps) fun qs => ∀ p ∈ qs, p ≠ none := by
  unfold checkArg
  match ps, h with
  | [], _ => exact ChkOk.if (fun _ => chk_ok (by simp)) fun _ => chk_err
  | none :: _, h => exact absurd rfl (h none (by simp))
  | some p :: ps, h => exact ChkOk.if (fun _ => chk_ok fun q hq => h q (by simp [hq])) fun _ => chk_err

theorem chk_field1 (fs : List (Name × Tag)) (had : Bool) (i : Nat) (ns : List Name) (t : Tag) :
    ChkOk (checkField1 fs had i ns t) fun _ => True := by
  unfold checkField1
  refine ChkOk.if (fun _ => chk_err) fun _ => ChkOk.if (fun _ => chk_err) fun hi => ChkOk.if (fun _ => ?_) fun _ => ?_
  · cases ns with
    | nil => exact chk_err
    | cons n ns =>
      simp only
      cases fs.find? (fun x => decide (x.1 = n)) with
      | none => exact chk_err
      | some p => exact ChkOk.if (fun _ => chk_ok trivial) fun _ => chk_err
  · rw [List.getElem?_eq_getElem (by omega)]
    exact ChkOk.if (fun _ => chk_ok trivial) fun _ => chk_err

mutual
/-- **The checker does not crash on an expression**, and the type it finds exists. -/
theorem chk_E {κ : Facts} {g : Front} (hg : Good κ g) : ∀ e : CExpr, OkE κ g.currFunc e → ChkOk (resolveE g e) fun p => TagOk g p.2
  | .null, _ | .bool _, _ | .int _, _ | .char _, _ | .float _, _ | .str _, _ => by rw [resolveE]; exact chk_ok trivial
  | .id n none, _ => by rw [resolveE]; exact chk_err
  | .id n (some r), h => by
    rw [resolveE]
    simp only [OkE] at h
    obtain ⟨s, t, e⟩ := hg.var _ h
    rw [symInfo_place] at e
    simp only [resolveId, e]
    exact chk_ok (symInfo_tag hg.tables hg.types e)
  | .call n as, h => by
    rw [resolveE.eq_def]
    simp only [OkE] at h
    simp only
    cases hf : referenceFunction g.syms n with
    | none => exact chk_err
    | some x =>
      obtain ⟨ps, va, r, gf, h1, h2, h3, -⟩ := sig_ret hg.tables hg.types hf
      simp only [h1]
      exact (chk_args hg va h3 as h).bind fun _ _ _ => chk_ok h2
  | .paren e, h => by
    rw [resolveE]
    simp only [OkE] at h
    exact (chk_E hg e h).bind fun p _ hp => chk_ok hp
  | .bin op l r, h => by
    rw [resolveE]
    simp only [OkE] at h
    exact (chk_E hg l h.2.1).bind fun p _ hp => (chk_E hg r h.2.2).bind fun q _ hq => (chk_binTag h.1 p.2 q.2 g).bind fun t _ ht => chk_ok ht
  | .un op e, h => by
    rw [resolveE]
    simp only [OkE] at h
    exact (chk_E hg e h.2).bind fun p _ hp => (chk_unTag h.1 hp).bind fun t _ ht => chk_ok ht
  | .dot l field, h => by
    rw [resolveE]
    simp only [OkE] at h
    exact (chk_E hg l h).bind fun p _ hp => (chk_dot hg.types hg.closed hp field).bind fun t _ ht => chk_ok ht
  | .index a i, h => by
    rw [resolveE]
    simp only [OkE] at h
    exact (chk_E hg a h.1).bind fun p _ hp => (chk_E hg i h.2).bind fun q _ hq => (chk_index hg.tables hg.types p.2).bind fun t _ ht => chk_ok ht
  | .ctor n names as, h => by
    rw [resolveE.eq_def]
    simp only [OkE] at h
    obtain ⟨fs, e, h1, -⟩ := fields_info hg.types hg.closed (hg.str n h.1)
    simp only [e]
    exact (chk_fields hg fs _ 0 names as h.2).bind fun _ _ _ => chk_ok (structTag_ok (hg.str n h.1))
  | .cast e t, h => by
    rw [resolveE]
    simp only [OkE] at h
    exact (chk_E hg e h.2).bind fun p _ hp => ChkOk.if (fun _ => chk_err) fun _ => chk_ok (hg.typ t h.1)
  | .ite c a b, h => by
    rw [resolveE]
    simp only [OkE] at h
    exact (chk_E hg c h.1).bind fun p _ hp => ChkOk.if (fun _ => chk_err) fun _ => (chk_E hg a h.2.1).bind fun q _ hq =>
      (chk_E hg b h.2.2).bind fun _ _ _ => ChkOk.if (fun _ => chk_err) fun _ => chk_ok hq
theorem chk_args {κ : Facts} {g : Front} (hg : Good κ g) (va : Bool) {ps : List (Option Tag)} (hp : ∀ p ∈ ps, p ≠ none) :
    ∀ as : List CExpr, OkEs κ g.currFunc as → ChkOk (resolveArgs g va ps as) fun _ => True
  | [], _ => by rw [resolveArgs]; exact chk_ok trivial
  | a :: as, h => by
    rw [resolveArgs]
    simp only [OkEs] at h
    exact (chk_E hg a h.1).bind fun p _ _ => (chk_arg va p.2 hp).bind fun qs _ hq => (chk_args hg va hq as h.2).bind fun _ _ _ => chk_ok trivial
theorem chk_fields {κ : Facts} {g : Front} (hg : Good κ g) (fs : List (Name × Tag)) (had : Bool) (i : Nat) (ns : List Name) :
    ∀ as : List CExpr, OkEs κ g.currFunc as → ChkOk (resolveFields g fs had i ns as) fun _ => True
  | [], _ => by rw [resolveFields]; exact chk_ok trivial
  | a :: as, h => by
    rw [resolveFields]
    simp only [OkEs] at h
    exact (chk_E hg a h.1).bind fun p _ _ => (chk_field1 fs had i ns p.2).bind fun _ _ _ =>
      (chk_fields hg fs had (i + 1) ns.tail as h.2).bind fun _ _ _ => chk_ok trivial
end

/-! ## Statements -/

/-- The expression a `:=` declares the variable of. -/
def Declarable (κ : Facts) (c : Cur) : CExpr → Prop
  | .id _ (some r) => κ.held (place c r)
  | _ => False

mutual
/-- The statement reads only variables whose type is known or declared before. -/
def OkS (κ : Facts) (c : Cur) : CStmt → Prop
  | .node _ s => OkS κ c s
  | .call _ as => OkEs κ c as
  | .block ss => OkSs κ c ss
  | .assign op _ l r => (op = .declare → Declarable κ c l) ∧ (op ≠ .declare → op.assigns = true → OkE κ c l) ∧ OkE κ c r
  | .proc i _ _ _ b => κ.fn i ∧ OkS κ (.at i) b
  | .ifThen d b => OkE κ c d ∧ OkS κ c b
  | .ifElse d b a => OkE κ c d ∧ OkS κ c b ∧ OkS (κ.add (pdecls c b)) c a
  | .while d b => OkE κ c d ∧ OkS κ c b
  | .for i d s b => OkS κ c i ∧ OkE (κ.add (pdecls c i)) c d ∧ OkS (κ.add (pdecls c i)) c s ∧ OkS ((κ.add (pdecls c i)).add (pdecls c s)) c b
  | .ret e => (∃ i, c = .at i ∧ κ.fn i) ∧ ∀ x, e = some x → OkE κ c x
  | _ => True
/-- See `OkS`. -/
def OkSs (κ : Facts) (c : Cur) : List CStmt → Prop
  | [] => True
  | s :: ss => OkS κ c s ∧ OkSs (κ.add (pdecls c s)) c ss
end

/-- An action does not crash, and its result satisfies `Q`. -/
def ActOk {α : Type} (x : Act Front α) (g : Front) (Q : α → Front → Prop) : Prop :=
  match x g with
  | .ok a g' => Q a g'
  | .err _ => True
  | .abort => False
  | .ub => False
  | .timeout => False

theorem ActOk.bind {α β : Type} {x : Act Front α} {f : α → Act Front β} {g : Front} {Q : α → Front → Prop} {R : β → Front → Prop}
    (hx : ActOk x g Q) (hf : ∀ a g', Q a g' → ActOk (f a) g' R) : ActOk (x >>= f) g R := by
  unfold ActOk at hx ⊢
  rw [act_bind]
  cases h : x g with
  | ok a g' => rw [h] at hx; exact hf a g' hx
  | err _ => exact trivial
  | abort => rw [h] at hx; exact hx
  | ub => rw [h] at hx; exact hx
  | timeout => rw [h] at hx; exact hx

theorem ActOk.if {α : Type} {c : Prop} [Decidable c] {x y : Act Front α} {g : Front} {Q : α → Front → Prop} (hx : c → ActOk x g Q)
    (hy : ¬ c → ActOk y g Q) : ActOk (if c then x else y) g Q := by
  by_cases h : c
  · rw [if_pos h]; exact hx h
  · rw [if_neg h]; exact hy h

theorem act_check {α : Type} {x : Front → Chk α} {g : Front} {Q : α → Prop} (h : ChkOk (x g) Q) :
    ActOk (Act.check x) g fun a g' => g' = g ∧ Q a ∧ x g = .ok a := by
  unfold ActOk Act.check
  unfold ChkOk at h
  cases hx : x g with
  | ok a => rw [hx] at h; exact ⟨rfl, h, rfl⟩
  | err => exact trivial
  | abort => rw [hx] at h; exact h
  | ub => rw [hx] at h; exact h

theorem act_done {α : Type} {a : α} {g : Front} {Q : α → Front → Prop} (h : Q a g) : ActOk (pure a) g Q := h
theorem act_report {α : Type} {g : Front} {Q : α → Front → Prop} : ActOk (Act.report : Act Front α) g Q := trivial

theorem asType_bare (x : Sym) (n : Name) : x.bare.asType n = x.asType n := by cases x <;> rfl
theorem isStruct_bare (x : Sym) (n : Name) : x.bare.isStruct n = x.isStruct n := by cases x <;> rfl

theorem any_bare {f : Front} {p : Sym → Prop} (h : ∀ x : Sym, p x.bare ↔ p x) : (∃ x ∈ f.syms, p x) ↔ ∃ x ∈ f.bare.syms, p x := by
  simp only [Front.bare, List.mem_map]
  constructor
  · rintro ⟨x, hx, hp⟩; exact ⟨_, ⟨x, hx, rfl⟩, (h x).2 hp⟩
  · rintro ⟨_, ⟨x, hx, rfl⟩, hp⟩; exact ⟨x, hx, (h x).1 hp⟩

theorem Like.struct {f f' : Front} (h : Like f f') {n : Name} (hn : ∃ x ∈ f.syms, x.isStruct n = true) : ∃ x ∈ f'.syms, x.isStruct n = true := by
  rw [any_bare (p := fun x => x.isStruct n = true) (fun x => by rw [isStruct_bare])] at hn ⊢
  rwa [← show f.bare = f'.bare from h]

theorem Like.type {f f' : Front} (h : Like f f') {n : Name} (hn : ∃ x ∈ f.syms, (x.asType n).isSome = true) :
    ∃ x ∈ f'.syms, (x.asType n).isSome = true := by
  rw [any_bare (p := fun x => (x.asType n).isSome = true) (fun x => by rw [asType_bare])] at hn ⊢
  rwa [← show f.bare = f'.bare from h]

theorem hidden_bare (f : Front) (n : Name) : f.bare.hidden n = f.hidden n := by
  unfold Front.hidden Front.bare
  simp only [List.find?_map, Function.comp_def, asType_bare]
  cases f.syms.find? (fun x => (x.asType n).isSome) with
  | none => rfl
  | some x => cases x <;> rfl

theorem Like.tag {f f' : Front} (h : Like f f') {t : Tag} (ht : TagOk f t) : TagOk f' t := by
  cases t <;> simp only [TagOk] at ht ⊢
  · exact h.type ht
  · exact ⟨by rw [← hidden_bare, ← show f.bare = f'.bare from h, hidden_bare]; exact ht.1, h.struct ht.2⟩

theorem tags_bare {x y : Sym} (h : x.bare = y.bare) : x.small ↔ y.small := by
  cases x <;> cases y <;> simp_all [Sym.bare, Sym.small]

/-- The places of variables. -/
theorem tagOf_cases {g : Front} {d : Place} (h : tagOf g d ≠ none) :
    (∃ i v, d.2 = .glob i ∧ g.syms[i]? = some (.glob v)) ∨
      ∃ j k fi v, d = (.at j, .loc k) ∧ g.syms[j]? = some (.func fi) ∧ fi.locals[k]? = some v := by
  unfold tagOf at h
  obtain ⟨c, r⟩ := d
  cases r with
  | glob i =>
    simp only [tagIn, List.getElem?_map] at h
    cases hi : g.syms[i]? with
    | none => rw [hi] at h; exact absurd rfl h
    | some x =>
      rw [hi] at h
      cases x <;> simp only [Option.map_some, Sym.core, neutral, ne_eq, not_true_eq_false] at h
      exact .inl ⟨i, _, rfl, hi⟩
  | loc k =>
    cases c with
    | «at» j =>
      simp only [tagIn, List.getElem?_map] at h
      cases hi : g.syms[j]? with
      | none => rw [hi] at h; exact absurd rfl h
      | some x =>
        rw [hi] at h
        cases x <;> simp only [Option.map_some, Sym.core, neutral, ne_eq, not_true_eq_false] at h
        rename_i fi
        cases hk : fi.locals[k]? with
        | none => simp [hk] at h
        | some v => exact .inr ⟨j, k, fi, v, rfl, hi, hk⟩
    | none => exact absurd rfl h
    | dangling => exact absurd rfl h
  | arg k => cases c <;> exact absurd rfl h

theorem tagAt_glob {g : Front} {c : Cur} {i : Nat} {v : VarInfo} (h : g.syms[i]? = some (.glob v)) : tagOf g (c, .glob i) = some v.tag := by
  simp [tagOf, tagIn, h, Sym.core, VarInfo.core]

theorem tagAt_loc {g : Front} {j k : Nat} {fi : FuncInfo} {v : VarInfo} (h : g.syms[j]? = some (.func fi)) (hk : fi.locals[k]? = some v) :
    tagOf g (.at j, .loc k) = some v.tag := by
  simp [tagOf, tagIn, h, Sym.core, hk, VarInfo.core]

/-- The table after a variable has been given a type. -/
structure Retyped (g g' : Front) (d : Place) (t : Tag) : Prop where
  like : Like g g'
  tags : ∀ x ∈ g'.syms, ∃ y ∈ g.syms, (∀ u ∈ x.tags, u ∈ y.tags ∨ u = t) ∧ (y.small → x.small) ∧ x.undefinedStruct = y.undefinedStruct
  held : ∀ e, tagOf g e ≠ none → tagOf g' e ≠ none
  var : ∀ e, TypedAt g e → TypedAt g' e
  new : TypedAt g' d

theorem retyped_set {g : Front} {i : Nat} {a b : Sym} {d : Place} {t : Tag} (hi : g.syms[i]? = some a) (hb : a.bare = b.bare)
    (ht : ∀ u ∈ b.tags, u ∈ a.tags ∨ u = t) (hu : b.undefinedStruct = a.undefinedStruct)
    (hh : ∀ e, tagOf g e ≠ none → tagOf { g with syms := g.syms.set i b } e ≠ none)
    (hv : ∀ e, TypedAt g e → TypedAt { g with syms := g.syms.set i b } e) (hd : TypedAt { g with syms := g.syms.set i b } d) :
    Retyped g { g with syms := g.syms.set i b } d t := by
  refine ⟨declare_like hi hb, ?_, hh, hv, hd⟩
  intro x hx
  rcases List.mem_or_eq_of_mem_set hx with hx | rfl
  · exact ⟨x, hx, fun u hu => .inl hu, id, rfl⟩
  · exact ⟨a, List.mem_of_getElem? hi, ht, (tags_bare hb).1, hu⟩

theorem modify_get {l : List VarInfo} {k m : Nat} {v : VarInfo} {t : Tag} (h : l[m]? = some v) :
    (l.modify k fun v => { v with tag := some t })[m]? = some (if k = m then { v with tag := some t } else v) := by
  rw [List.getElem?_modify, h]
  by_cases e : k = m <;> simp [e]

theorem retype {g : Front} {r : SymRef} (h : tagOf g (place g.currFunc r) ≠ none) (t : Tag) :
    ∃ g', setVarTag (some r) t g = .ok () g' ∧ Retyped g g' (place g.currFunc r) t := by
  rcases tagOf_cases h with ⟨i, v, h1, h2⟩ | ⟨j, k, fi, v, h1, h2, h3⟩
  · cases r <;> simp only [place, SymRef.glob.injEq, reduceCtorEq] at h1
    rename_i i0
    subst h1
    have hlt := (List.getElem?_eq_some_iff.1 h2).1
    refine ⟨{ g with syms := g.syms.set _ (.glob { v with tag := some t }) }, by simp [setVarTag, h2], retyped_set h2 rfl ?_ rfl ?_ ?_ ?_⟩
    · intro u hu
      exact .inr (by simpa [Sym.tags] using hu)
    · intro e he
      rcases tagOf_cases he with ⟨i0', v', e1, e2⟩ | ⟨j, k, fi, w, rfl, e2, e3⟩
      · obtain ⟨c, r⟩ := e
        simp only at e1
        subst e1
        by_cases hi : i0 = i0'
        · subst hi
          rw [tagAt_glob (List.getElem?_set_self hlt)]; simp
        · rw [tagAt_glob (v := v') (by simpa [List.getElem?_set_ne hi] using e2)]; simp
      · have hj : i0 ≠ j := by rintro rfl; rw [h2] at e2; cases e2
        rw [tagAt_loc (fi := fi) (v := w) (by simpa [List.getElem?_set_ne hj] using e2) e3]; simp
    · rintro ⟨c, r⟩ ⟨s, u, e⟩
      cases r with
      | glob i0' =>
        by_cases hi : i0 = i0'
        · subst hi
          exact ⟨.glob v.idx.toNat, t, by simp [symInfo, hlt]⟩
        · exact ⟨s, u, by simpa [symInfo, List.getElem?_set_ne hi] using e⟩
      | loc k =>
        simp only [symInfo] at e
        cases c <;> simp only [reduceCtorEq] at e
        rename_i j
        have hj : i0 ≠ j := by rintro rfl; rw [h2] at e; cases e
        exact ⟨s, u, by simpa [symInfo, List.getElem?_set_ne hj] using e⟩
      | arg k =>
        simp only [symInfo] at e
        cases c <;> simp only [reduceCtorEq] at e
        rename_i j
        have hj : i0 ≠ j := by rintro rfl; rw [h2] at e; cases e
        exact ⟨s, u, by simpa [symInfo, List.getElem?_set_ne hj] using e⟩
    · exact ⟨.glob v.idx.toNat, t, by simp [symInfo, place, hlt]⟩
  · cases r <;> simp only [place, Prod.mk.injEq, SymRef.loc.injEq, reduceCtorEq, and_false] at h1
    rename_i k0
    obtain ⟨hc, e0⟩ := h1
    subst e0
    have hlt := (List.getElem?_eq_some_iff.1 h2).1
    refine ⟨{ g with syms := g.syms.set j (.func { fi with locals := fi.locals.modify k0 fun v => { v with tag := some t } }) },
      by simp [setVarTag, updateFunc, hc, h2], retyped_set h2 (by simp only [Sym.bare, modify_bare]) ?_ rfl ?_ ?_ ?_⟩
    · intro u hu
      simp only [Sym.tags, List.mem_append, List.mem_filterMap] at hu ⊢
      rcases hu with ⟨w, hw | hw, e⟩ | hu
      · exact .inl (.inl ⟨w, .inl hw, e⟩)
      · obtain ⟨m, hm⟩ := List.mem_iff_getElem?.1 hw
        cases hl : fi.locals[m]? with
        | none => rw [List.getElem?_modify, hl] at hm; cases hm
        | some w' =>
          rw [modify_get hl] at hm
          cases hm
          split at e
          · exact .inr (by simpa using e.symm)
          · exact .inl (.inl ⟨_, .inr (List.mem_of_getElem? hl), e⟩)
      · exact .inl (.inr hu)
    · intro e he
      rcases tagOf_cases he with ⟨i', v', e1, e2⟩ | ⟨j', k', fi', w, rfl, e2, e3⟩
      · obtain ⟨c, r⟩ := e
        simp only at e1
        subst e1
        have hj : j ≠ i' := by rintro rfl; rw [h2] at e2; cases e2
        rw [tagAt_glob (v := v') (by simpa [List.getElem?_set_ne hj] using e2)]; simp
      · by_cases hj : j = j'
        · subst hj
          rw [h2] at e2
          cases e2
          rw [tagAt_loc (List.getElem?_set_self hlt) (modify_get e3)]; simp
        · rw [tagAt_loc (fi := fi') (v := w) (by simpa [List.getElem?_set_ne hj] using e2) e3]; simp
    · rintro ⟨c, r⟩ ⟨s, u, e⟩
      cases r with
      | glob i' =>
        have hj : j ≠ i' := by rintro rfl; simp [symInfo, h2] at e
        exact ⟨s, u, by simpa [symInfo, List.getElem?_set_ne hj] using e⟩
      | loc k' =>
        simp only [symInfo] at e
        cases c <;> simp only [reduceCtorEq] at e
        rename_i j'
        by_cases hj : j = j'
        · subst hj
          rw [h2] at e
          simp only at e
          cases hk : fi.locals[k']? with
          | none => rw [hk] at e; cases e
          | some w =>
            rw [hk] at e
            simp only [Chk.ok.injEq, Prod.mk.injEq] at e
            refine ⟨.loc w.idx, if k0 = k' then t else u, ?_⟩
            · simp only [symInfo, List.getElem?_set_self hlt, modify_get hk, Chk.ok.injEq, Prod.mk.injEq]
              split
              · exact ⟨rfl, rfl⟩
              · exact ⟨rfl, e.2⟩
        · exact ⟨s, u, by simpa [symInfo, List.getElem?_set_ne hj] using e⟩
      | arg k' =>
        simp only [symInfo] at e
        cases c <;> simp only [reduceCtorEq] at e
        rename_i j'
        by_cases hj : j = j'
        · subst hj
          rw [h2] at e
          exact ⟨s, u, by simpa [symInfo, hlt] using e⟩
        · exact ⟨s, u, by simpa [symInfo, List.getElem?_set_ne hj] using e⟩
    · refine ⟨.loc v.idx, t, ?_⟩
      simp only [symInfo, place, hc, List.getElem?_set_self hlt, modify_get h3, if_true]

theorem Retyped.good {κ : Facts} {g g' : Front} {d : Place} {t : Tag} (h : Retyped g g' d t) (hg : Good κ g) (ht : TagOk g t) : Good (κ.add [d]) g' where
  tables := h.like.tables hg.tables
  types := fun x hx => by
    obtain ⟨y, hy, h1, h2, -⟩ := h.tags x hx
    have := hg.types y hy
    refine ⟨fun u hu => h.like.tag ?_, h2 this.2⟩
    rcases h1 u hu with hu | rfl
    · exact this.1 u hu
    · exact ht
  closed := fun x hx => by
    obtain ⟨y, hy, -, -, h3⟩ := h.tags x hx
    rw [h3]; exact hg.closed y hy
  typ := fun u hu => h.like.tag (hg.typ u hu)
  str := fun n hn => h.like.struct (hg.str n hn)
  held := fun e he => h.held e (hg.held e he)
  fn := fun i hi => by
    obtain ⟨fi, hf⟩ := hg.fn i hi
    obtain ⟨fi', h1, -⟩ := h.like.func hf
    exact ⟨fi', h1⟩
  var := fun e he => by
    rcases he with he | he
    · exact h.var e (hg.var e he)
    · rw [List.mem_singleton] at he
      subst he
      exact h.new

theorem Good.enter {κ : Facts} {g : Front} (h : Good κ g) (c : Cur) : Good κ { g with currFunc := c } :=
  ⟨tables_enter h.tables c, h.types, h.closed, h.typ, h.str, h.held, h.fn, h.var⟩

/-- What checking a statement leaves. -/
def Passed (κ : Facts) (ds : List Place) (c : Cur) (g' : Front) : Prop := Good (κ.add ds) g' ∧ g'.currFunc = c

theorem act_E {κ : Facts} {g : Front} (hg : Good κ g) {e : CExpr} (h : OkE κ g.currFunc e) :
    ActOk (Act.check fun f => resolveE f e) g fun p g' => g' = g ∧ TagOk g p.2 ∧ resolveE g e = .ok p :=
  act_check (chk_E hg e h)

theorem act_cond {κ : Facts} {g : Front} (hg : Good κ g) {e : CExpr} (h : OkE κ g.currFunc e) :
    ActOk (resolveCond e) g fun _ g' => g' = g := by
  unfold resolveCond
  refine (act_E hg h).bind fun p g' hp => ActOk.if (fun _ => act_report) fun _ => act_done hp.1

theorem declared_ok {κ : Facts} {g : Front} (hg : Good κ g) {l : CExpr} (h : Declarable κ g.currFunc l) :
    ∃ n r s, l = .id n (some r) ∧ declared g l = .ok (n, r, s) ∧ tagOf g (place g.currFunc r) ≠ none := by
  unfold Declarable at h
  split at h
  · rename_i n r
    have hh := hg.held _ h
    rcases tagOf_cases hh with ⟨i, v, h1, h2⟩ | ⟨j, k, fi, v, h1, h2, h3⟩
    · cases r <;> simp only [place, SymRef.glob.injEq, reduceCtorEq] at h1
      subst h1
      exact ⟨n, _, .glob v.idx.toNat, rfl, by simp [declared, symInfo, h2], hh⟩
    · cases r <;> simp only [place, Prod.mk.injEq, SymRef.loc.injEq, reduceCtorEq, and_false] at h1
      obtain ⟨hc, rfl⟩ := h1
      exact ⟨n, _, .loc v.idx, rfl, by simp [declared, symInfo, hc, h2, h3], hh⟩
  · exact h.elim

theorem act_assign {κ : Facts} {g : Front} (hg : Good κ g) {op : Tok} {ann : Option Tag} {l r : CExpr} (h : OkS κ g.currFunc (.assign op ann l r)) :
    ActOk (resolveAssign op l r) g fun _ g' => Passed κ (pdecls g.currFunc (.assign op ann l r)) g.currFunc g' := by
  simp only [OkS] at h
  obtain ⟨h1, h2, h3⟩ := h
  have hsame : op ≠ .declare → Passed κ (pdecls g.currFunc (.assign op ann l r)) g.currFunc g := by
    intro ho
    have : pdecls g.currFunc (.assign op ann l r) = [] := by
      unfold pdecls
      split <;> simp_all
    rw [this]
    exact ⟨by rw [Facts.add_nil]; exact hg, rfl⟩
  unfold resolveAssign
  refine ActOk.if (fun ho => ?_) fun ho => ActOk.if (fun ha => ?_) fun _ => ?_
  · obtain ⟨n, x, s, rfl, hd, hh⟩ := declared_ok hg (h1 ho)
    subst ho
    have : ActOk (Act.check fun f => declared f (.id n (some x))) g fun p g' => g' = g ∧ p = (n, x, s) := by
      unfold ActOk Act.check
      simp only [hd, and_self]
    refine this.bind fun p g' hp => ?_
    obtain ⟨rfl, rfl⟩ := hp
    refine (act_E hg h3).bind fun p g'' hp => ?_
    obtain ⟨rfl, hp, -⟩ := hp
    refine ActOk.if (fun _ => act_report) fun _ => ?_
    obtain ⟨g3, e, hr⟩ := retype hh p.2
    have : ActOk (setVarTag (some x) p.2) g'' fun _ g' => g' = g3 := by
      unfold ActOk
      rw [e]
    refine this.bind fun _ g' hg' => ?_
    subst hg'
    refine act_done ⟨?_, hr.like.cur⟩
    simpa only [pdecls] using hr.good hg hp
  · refine (act_E hg (h2 ho ha)).bind fun p g' hp => ?_
    obtain ⟨rfl, -, -⟩ := hp
    refine (act_E hg h3).bind fun p g' hp => ?_
    obtain ⟨rfl, -, -⟩ := hp
    exact ActOk.if (fun _ => act_done (hsame ho)) fun _ => act_report
  · refine (act_E hg h3).bind fun p g' hp => ?_
    obtain ⟨rfl, -, -⟩ := hp
    exact act_done (hsame ho)

theorem act_ret {κ : Facts} {g : Front} (hg : Good κ g) {e : Option CExpr} (h : OkS κ g.currFunc (.ret e)) :
    ActOk (resolveRet e) g fun _ g' => Passed κ [] g.currFunc g' := by
  simp only [OkS] at h
  obtain ⟨⟨i, hc, hi⟩, h2⟩ := h
  obtain ⟨fi, hf⟩ := hg.fn i hi
  obtain ⟨r, hr⟩ := Option.isSome_iff_exists.1 (hg.tables.rets fi (List.mem_of_getElem? hf))
  have hp : Passed κ [] g.currFunc g := ⟨by rw [Facts.add_nil]; exact hg, rfl⟩
  unfold resolveRet
  have : ActOk currentFunc g fun o g' => g' = g ∧ o = some fi := by
    unfold ActOk currentFunc
    rw [hc]
    simp [hf]
  refine this.bind fun o g' ho => ?_
  obtain ⟨rfl, rfl⟩ := ho
  simp only
  cases e with
  | some e =>
    simp only [hr]
    refine (act_E hg (h2 e rfl)).bind fun p g' hp' => ?_
    obtain ⟨rfl, -, -⟩ := hp'
    exact ActOk.if (fun _ => act_done hp) fun _ => act_report
  | none =>
    simp only [hr]
    exact ActOk.if (fun _ => act_report) fun _ => act_done hp

theorem resolve_call {g : Front} {n : Name} {as : List CExpr} {p : Expr × Tag} (h : resolveE g (.call n as) = .ok p) :
    ∃ m xs, p.1 = .call m xs := by
  rw [resolveE.eq_def] at h
  simp only at h
  cases hf : referenceFunction g.syms n with
  | none => rw [hf] at h; cases h
  | some x =>
    rw [hf] at h
    simp only at h
    cases hs : x.sig with
    | none => rw [hs] at h; cases h
    | some q =>
      obtain ⟨ps, va, r⟩ := q
      rw [hs] at h
      simp only at h
      cases ha : resolveArgs g va ps as with
      | ok xs =>
        rw [ha] at h
        cases r with
        | none => cases h
        | some r => cases h; exact ⟨_, _, rfl⟩
      | err => rw [ha] at h; cases h
      | abort => rw [ha] at h; cases h
      | ub => rw [ha] at h; cases h

theorem Passed.trans {κ : Facts} {ds es : List Place} {c : Cur} {g : Front} (b : Passed (κ.add ds) es c g) : Passed κ (ds ++ es) c g :=
  ⟨by rw [Facts.add_append]; exact b.1, b.2⟩

theorem act_cond' {κ : Facts} {g : Front} {c : Cur} (hg : Passed κ [] c g) {e : CExpr} (h : OkE κ c e) : ActOk (resolveCond e) g fun _ g' => Passed κ [] c g' := by
  obtain ⟨hg, rfl⟩ := hg
  rw [Facts.add_nil] at hg
  have := act_cond hg h
  unfold ActOk at this ⊢
  cases hx : resolveCond e g with
  | ok a g' => rw [hx] at this; simp only at this ⊢; subst this; exact ⟨by rwa [Facts.add_nil], rfl⟩
  | err _ => exact trivial
  | abort => rw [hx] at this; exact this
  | ub => rw [hx] at this; exact this
  | timeout => rw [hx] at this; exact this

theorem Passed.same {κ : Facts} {ds : List Place} {c : Cur} {g : Front} (h : Passed κ ds c g) : Passed (κ.add ds) [] c g := ⟨by rw [Facts.add_nil]; exact h.1, h.2⟩

mutual
/-- **The checker does not crash on a statement.** -/
theorem act_S {κ : Facts} : ∀ (s : CStmt) {g : Front} {c : Cur}, Passed κ [] c g → OkS κ c s →
    ActOk (resolveS s) g fun _ g' => Passed κ (pdecls c s) c g'
  | .node _ s, g, c, hg, h => by
    simp only [OkS] at h
    simp only [resolveS, pdecls]
    exact (act_S s hg h).bind fun _ _ hp => act_done hp
  | .call n as, g, c, hg, h => by
    simp only [OkS] at h
    simp only [resolveS, pdecls]
    obtain ⟨hg, rfl⟩ := hg
    rw [Facts.add_nil] at hg
    refine (act_E hg (e := .call n as) (by simpa only [OkE] using h)).bind fun p g' hp => ?_
    obtain ⟨rfl, -, hp⟩ := hp
    obtain ⟨m, xs, e⟩ := resolve_call hp
    obtain ⟨e', t⟩ := p
    simp only at e
    subst e
    exact act_done ⟨by rw [Facts.add_nil]; exact hg, rfl⟩
  | .block ss, g, c, hg, h => by
    simp only [OkS] at h
    simp only [resolveS, pdecls]
    exact (act_Ss ss hg h).bind fun _ _ hp => act_done hp
  | .assign op ann l r, g, c, hg, h => by
    obtain ⟨hg, rfl⟩ := hg
    rw [Facts.add_nil] at hg
    rw [resolveS]
    exact act_assign hg h
  | .proc i n ps r b, g, c, hg, h => by
    obtain ⟨hg, rfl⟩ := hg
    rw [Facts.add_nil] at hg
    simp only [OkS] at h
    simp only [resolveS, pdecls]
    have h1 : ActOk (Act.get : Act Front Front) g fun p g' => p = g ∧ g' = g := ⟨rfl, rfl⟩
    refine h1.bind fun p g' hp => ?_
    obtain ⟨rfl, rfl⟩ := hp
    have h2 : ActOk (Act.modify fun f : Front => { f with currFunc := .at i }) g' fun _ g'' => g'' = { g' with currFunc := .at i } := rfl
    refine h2.bind fun _ g2 hg2 => ?_
    subst hg2
    obtain ⟨fi, hf⟩ := hg.fn i h.1
    have h3 : ActOk (Act.check fun f => procInfo f i) { g' with currFunc := .at i } fun _ g'' => g'' = { g' with currFunc := .at i } := by
      unfold ActOk Act.check procInfo
      simp only [hf]
    refine h3.bind fun q g3 hg3 => ?_
    subst hg3
    have h5 : Passed κ [] (.at i) { g' with currFunc := .at i } := ⟨by rw [Facts.add_nil]; exact hg.enter _, rfl⟩
    refine (act_S b h5 h.2).bind fun b' g4 hp => ?_
    have h4 : ActOk (Act.modify fun f : Front => { f with currFunc := g'.currFunc }) g4 fun _ g'' => g'' = { g4 with currFunc := g'.currFunc } := rfl
    refine h4.bind fun _ g5 hg5 => ?_
    subst hg5
    exact act_done ⟨hp.1.enter _, rfl⟩
  | .ifThen d b, g, c, hg, h => by
    simp only [OkS] at h
    simp only [resolveS, pdecls]
    refine (act_cond' hg h.1).bind fun _ g' hg' => ?_
    exact (act_S b hg' h.2).bind fun _ _ hp => act_done hp
  | .ifElse d b a, g, c, hg, h => by
    simp only [OkS] at h
    simp only [resolveS, pdecls]
    refine (act_cond' hg h.1).bind fun _ g' hg' => ?_
    refine (act_S b hg' h.2.1).bind fun _ g1 hp => ?_
    exact (act_S a hp.same h.2.2).bind fun _ g2 hq => act_done hq.trans
  | .while d b, g, c, hg, h => by
    simp only [OkS] at h
    simp only [resolveS, pdecls]
    refine (act_cond' hg h.1).bind fun _ g' hg' => ?_
    exact (act_S b hg' h.2).bind fun _ _ hp => act_done hp
  | .for i d s b, g, c, hg, h => by
    simp only [OkS] at h
    simp only [resolveS, pdecls]
    obtain ⟨k0, k1, k2, k3⟩ := h
    refine (act_S i hg k0).bind fun _ g1 hp => ?_
    refine (act_cond' hp.same k1).bind fun _ g' hg' => ?_
    refine (act_S s hg' k2).bind fun _ g2 hq => ?_
    exact (act_S b hq.same k3).bind fun _ g3 hr => act_done hr.trans.trans
  | .ret e, g, c, hg, h => by
    obtain ⟨hg, rfl⟩ := hg
    rw [Facts.add_nil] at hg
    simp only [resolveS, pdecls]
    exact act_ret hg h
  | .brk, g, c, hg, h => by
    simp only [resolveS, pdecls]
    exact act_done hg
  | .cont, g, c, hg, h => by
    simp only [resolveS, pdecls]
    exact act_done hg
  | .use _ _ _, g, c, hg, h => by
    simp only [resolveS, pdecls]
    exact act_done hg
  | .struct _ _, g, c, hg, h => by
    simp only [resolveS, pdecls]
    exact act_done hg
/-- **The checker does not crash on statements.** -/
theorem act_Ss {κ : Facts} : ∀ (ss : List CStmt) {g : Front} {c : Cur}, Passed κ [] c g → OkSs κ c ss →
    ActOk (resolveSs ss) g fun _ g' => Passed κ (pdeclsL c ss) c g'
  | [], g, c, hg, h => by
    simp only [resolveSs, pdeclsL]
    exact act_done hg
  | s :: ss, g, c, hg, h => by
    simp only [OkSs] at h
    simp only [resolveSs, pdeclsL]
    refine (act_S s hg h.1).bind fun _ g1 hp => ?_
    exact (act_Ss ss hp.same h.2).bind fun _ g2 hq => act_done hq.trans
end

end Tiny
