import Verif.Proofs.OneLine

/-!
# Compiling the function which the macro `json` writes
-/

namespace Tiny
open Spec

/-! ## The strings -/

/-- The strings of a table, when only strings for which `L` holds have been added. -/
def Room (L : Name → Prop) (σ0 σ : List (List UInt8)) : Prop :=
  ∃ ρ, σ = σ0 ++ ρ ∧ ρ.Nodup ∧ ∀ x ∈ ρ, x ∉ σ0 ∧ L x

theorem Room.refl {L : Name → Prop} {σ0 : List (List UInt8)} : Room L σ0 σ0 := ⟨[], by simp, by simp, by simp⟩

theorem Room.register {L : Name → Prop} {f0 f : Front} (h : Room L f0.strings f.strings) (hn : ¬ TooMany f0 L) {x : List UInt8} (hx : L x) :
    ∃ i σ, registerString x f = .ok i { f with strings := f.strings ++ σ } ∧ Room L f0.strings (f.strings ++ σ) ∧ (f.strings ++ σ)[i]? = some x := by
  obtain ⟨ρ, e, h1, h2⟩ := h
  unfold registerString
  cases hi : f.strings.findIdx? (· == x) with
  | some i =>
    refine ⟨i, [], by simp, ⟨ρ, by simp [e], h1, h2⟩, ?_⟩
    obtain ⟨k1, k2, -⟩ := List.findIdx?_eq_some_iff_getElem.1 hi
    simp only [beq_iff_eq] at k2
    rw [List.append_nil, List.getElem?_eq_getElem k1, k2]
  | none =>
    have hno : x ∉ f.strings := by
      rw [List.findIdx?_eq_none_iff] at hi
      intro hm
      have := hi x hm
      simp at this
    have hnew : (ρ ++ [x]).Nodup ∧ ∀ y ∈ ρ ++ [x], y ∉ f0.strings ∧ L y := by
      rw [e] at hno
      simp only [List.mem_append, not_or] at hno
      refine ⟨List.nodup_append.2 ⟨h1, by simp, ?_⟩, ?_⟩
      · intro a ha b hb
        simp only [List.mem_singleton] at hb
        exact fun e => hno.2 (hb ▸ e ▸ ha)
      · intro y hy
        simp only [List.mem_append, List.mem_singleton] at hy
        rcases hy with hy | rfl
        · exact h2 y hy
        · exact ⟨hno.1, hx⟩
    have hlt : f.strings.length < maxStrings := by
      rcases Nat.lt_or_ge f.strings.length maxStrings with h | h
      · exact h
      · refine absurd ⟨ρ ++ [x], hnew.1, hnew.2, ?_⟩ hn
        rw [e] at h
        simp only [List.length_append, List.length_cons, List.length_nil] at h ⊢
        omega
    refine ⟨f.strings.length, [x], by simp [hlt], ⟨ρ ++ [x], by simp [e], hnew.1, hnew.2⟩, by simp⟩

theorem Room.fits {L : Name → Prop} {f0 : Front} {σ : List (List UInt8)} (h : Room L f0.strings σ) (hn : ¬ TooMany f0 L) {x : List UInt8} (hx : L x) :
    x ∈ σ ∨ σ.length < maxStrings := by
  by_cases hm : x ∈ σ
  · exact .inl hm
  · obtain ⟨i, τ, h1, h2, h3⟩ := Room.register (f := { f0 with strings := σ }) h hn hx
    unfold registerString at h1
    cases hi : σ.findIdx? (· == x) with
    | some i =>
      obtain ⟨k1, k2, -⟩ := List.findIdx?_eq_some_iff_getElem.1 hi
      simp only [beq_iff_eq] at k2
      exact .inl (k2 ▸ List.getElem_mem k1)
    | none =>
      simp only [hi] at h1
      by_cases hl : σ.length < maxStrings
      · exact .inr hl
      · rw [if_neg hl] at h1
        cases h1

/-! ## The arguments of `strcat` -/

/-- A piece of the object: a constant text, or the text for a field. -/
inductive JPiece where
  | text (x : List UInt8)
  | field (fn field : Name)

def JPiece.source : JPiece → SExpr
  | .text x => .str x
  | .field g p => .call g [.dot (.id (bytes "v") ()) p]

/-- With names. -/
inductive JPiece.Is (σ : List (List UInt8)) : JPiece → CExpr → Prop
  | text {x i} : σ[i]? = some x → JPiece.Is σ (.text x) (.str i)
  | field {g p} : JPiece.Is σ (.field g p) (.call g [.dot (.id (bytes "v") (some (.arg 0))) p])

/-- With types. -/
inductive JPiece.Typed (σ : List (List UInt8)) (T : Name) : JPiece → Expr → Prop
  | text {x i} : σ[i]? = some x → JPiece.Typed σ T (.text x) (.str i)
  | field {g p} : JPiece.Typed σ T (.field g p) (.call g [.dot (.id (bytes "v") (some (.loc (-1)))) p (some (.named T))])

theorem JPiece.Is.more {σ τ : List (List UInt8)} {a : JPiece} {e : CExpr} (h : a.Is σ e) : a.Is (σ ++ τ) e := by
  cases h with
  | text h =>
    refine .text ?_
    rw [List.getElem?_append_left (List.getElem?_eq_some_iff.1 h).1]
    exact h
  | field => exact .field


theorem name_pieces {L : Name → Prop} {f0 : Front} (hn : ¬ TooMany f0 L) : ∀ (as : List JPiece) {f : Front},
    (∀ σ, referenceVariable (bytes "v") { f with strings := σ } = .ok (some (.arg 0)) { f with strings := σ }) →
    Room L f0.strings f.strings → (∀ x, JPiece.text x ∈ as → L x) →
    ∃ es σ, nameExprs frontOps (as.map JPiece.source) f = .ok es { f with strings := f.strings ++ σ } ∧
      Room L f0.strings (f.strings ++ σ) ∧ List.Forall₂ (JPiece.Is (f.strings ++ σ)) as es
  | [], f, hv, hr, hl => ⟨[], [], by rw [List.map_nil, nameExprs]; simp [act_pure_ok], by simpa using hr, .nil⟩
  | .text x :: as, f, hv, hr, hl => by
    obtain ⟨i, σ, h1, h2, h3⟩ := hr.register hn (hl x (by simp))
    obtain ⟨es, τ, k1, k2, k3⟩ := name_pieces hn as (f := { f with strings := f.strings ++ σ }) hv h2 fun y hy => hl y (by simp [hy])
    have e : f.strings ++ (σ ++ τ) = f.strings ++ σ ++ τ := by simp
    refine ⟨.str i :: es, σ ++ τ, ?_, e ▸ k2, .cons (e ▸ JPiece.Is.more (.text h3)) (e ▸ k3)⟩
    rw [List.map_cons, nameExprs]
    have h4 : nameExpr frontOps (JPiece.source (.text x)) f = .ok (.str i) { f with strings := f.strings ++ σ } := by
      unfold JPiece.source
      rw [nameExpr]
      simp only [Act.bind_apply, show frontOps.str x f = _ from h1]
      rfl
    simp only [Act.bind_apply, h4, k1, act_pure_ok, e]
  | .field g p :: as, f, hv, hr, hl => by
    obtain ⟨es, τ, k1, k2, k3⟩ := name_pieces hn as (f := f) hv hr fun y hy => hl y (by simp [hy])
    refine ⟨_ :: es, τ, ?_, k2, .cons .field k3⟩
    rw [List.map_cons, nameExprs]
    have h4 : nameExpr frontOps (JPiece.source (.field g p)) f = .ok (.call g [.dot (.id (bytes "v") (some (.arg 0))) p]) f := by
      unfold JPiece.source
      have h5 := hv f.strings
      rw [nameExpr, nameExprs, nameExprs, nameExpr, nameExpr]
      simp only [Act.bind_apply, show frontOps.ref (bytes "v") f = _ from h5, act_pure_ok]
    simp only [Act.bind_apply, h4, k1, act_pure_ok]

/-! ## Types -/

/-- What there is in the table for the function of the struct `T`. -/
structure TableFor (f : Front) (T : Name) (fs : List (Name × Tag)) : Prop where
  type : f.syms.find? (fun x => (x.asType T).isSome) = some (.struct T true fs)
  strcat : ∃ i, referenceFunction f.syms (bytes "strcat") = some (.foreign (bytes "strcat") i [.str, .str] true .str)

theorem hidden_of {f : Front} {T : Name} {d : Bool} {fs : List (Name × Tag)} (h : f.syms.find? (fun x => (x.asType T).isSome) = some (.struct T d fs)) :
    f.hidden T = false := by
  unfold Front.hidden
  rw [h]

theorem info_of {l : List Sym} {T : Name} {d : Bool} {fs : List (Name × Tag)} (h : l.find? (fun x => (x.asType T).isSome) = some (.struct T d fs)) :
    l.findSome? (·.structInfo T) = some (d, fs) := by
  induction l with
  | nil => cases h
  | cons x l ih =>
    rw [List.find?_cons] at h
    cases hx : (x.asType T).isSome with
    | true =>
      rw [hx] at h
      simp only [Option.some.injEq] at h
      subst h
      simp [Sym.structInfo]
    | false =>
      rw [hx] at h
      have h2 : x.structInfo T = none := by
        cases x <;> simp_all [Sym.asType, Sym.structInfo]
      rw [List.findSome?_cons, h2]
      exact ih h

/-- A field whose type has a function. -/
def FieldReady (f : Front) (fs : List (Name × Tag)) (g p : Name) : Prop :=
  ∃ ft x, (fs.find? (·.1 = p)).map Prod.snd = some ft ∧ referenceFunction f.syms g = some x ∧ TakesOne ft x

def PieceReady (f : Front) (fs : List (Name × Tag)) : JPiece → Prop
  | .text _ => True
  | .field g p => FieldReady f fs g p

theorem resolve_field {f : Front} (hT : Tables f) {T : Name} {fs : List (Name × Tag)} (h : TableFor f T fs)
    (hv : symInfo f (.arg 0) = .ok (.loc (-1), some (.named T))) {g p : Name} (hr : FieldReady f fs g p) :
    ∃ t, resolveE f (.call g [.dot (.id (bytes "v") (some (.arg 0))) p]) =
      .ok (.call g [.dot (.id (bytes "v") (some (.loc (-1)))) p (some (.named T))], t) := by
  obtain ⟨ft, x, h1, h2, h3⟩ := hr
  have hid : resolveE f (.id (bytes "v") (some (.arg 0))) = .ok (.id (bytes "v") (some (.loc (-1))), .named T) := by
    rw [resolveE]
    unfold resolveId
    simp only [hv]
  have hdot : dotTag f (.named T) p = .ok ft := by
    unfold dotTag fieldTag
    simp only [hidden_of h.type, Bool.false_eq_true, if_false, info_of h.type]
    cases hf : fs.find? (·.1 = p) with
    | none => rw [hf] at h1; cases h1
    | some q =>
      rw [hf] at h1
      simp only [Option.map_some, Option.some.injEq] at h1
      simp [h1]
  have hd : resolveE f (.dot (.id (bytes "v") (some (.arg 0))) p) = .ok (.dot (.id (bytes "v") (some (.loc (-1)))) p (some (.named T)), ft) := by
    rw [resolveE, hid, Chk.ok_bind]
    simp only
    rw [hdot, Chk.ok_bind]
  have ha : ∀ (va : Bool) ps ps', checkArg va ft ps = .ok ps' → resolveArgs f va ps [.dot (.id (bytes "v") (some (.arg 0))) p] =
      .ok [.dot (.id (bytes "v") (some (.loc (-1)))) p (some (.named T))] := by
    intro va ps ps' e
    rw [resolveArgs, hd, Chk.ok_bind]
    simp only
    rw [e, Chk.ok_bind, resolveArgs]
    rfl
  rw [resolveE, h2]
  cases x with
  | func fi =>
    obtain ⟨v, q, e1, e2, e3⟩ := h3
    obtain ⟨r, hr⟩ := Option.isSome_iff_exists.1 (hT.rets fi (List.mem_of_find?_eq_some h2))
    refine ⟨r, ?_⟩
    simp only [Sym.sig, e1, List.map_cons, List.map_nil, e2, hr]
    rw [ha false [some q] [] (by unfold checkArg; simp only [(c36_assignable _ _).2 e3, if_true])]
    rfl
  | foreign n i ps va r =>
    refine ⟨r, ?_⟩
    rcases h3 with ⟨rfl, rfl⟩ | ⟨q, rfl, e3⟩
    · simp only [Sym.sig, List.map_nil]
      rw [ha true [] [] rfl]
      rfl
    · simp only [Sym.sig, List.map_cons, List.map_nil]
      rw [ha va [some q] [] (by unfold checkArg; simp only [(c36_assignable _ _).2 e3, if_true])]
      rfl
  | _ => exact h3.elim

theorem resolve_pieces {f : Front} (hT : Tables f) {T : Name} {fs : List (Name × Tag)} (h : TableFor f T fs)
    (hv : symInfo f (.arg 0) = .ok (.loc (-1), some (.named T))) {as : List JPiece} {es : List CExpr} {σ : List (List UInt8)}
    (he : List.Forall₂ (JPiece.Is σ) as es) : (∀ a ∈ as, PieceReady f fs a) →
    ∃ es', resolveArgs f true [] es = .ok es' ∧ List.Forall₂ (JPiece.Typed σ T) as es' := by
  induction he with
  | nil => intro; exact ⟨[], by rw [resolveArgs], .nil⟩
  | cons ha _ ih =>
    intro hr
    obtain ⟨es', h1, h2⟩ := ih fun a ha => hr a (by simp [ha])
    rw [resolveArgs]
    cases ha with
    | @text x i hi =>
      refine ⟨.str i :: es', ?_, .cons (.text hi) h2⟩
      rw [resolveE, Chk.ok_bind]
      simp only
      rw [show checkArg true .str [] = .ok [] from rfl, Chk.ok_bind, h1]
      rfl
    | @field g p =>
      obtain ⟨t, ht⟩ := resolve_field hT h hv (hr (.field g p) (by simp))
      refine ⟨_ :: es', ?_, .cons .field h2⟩
      rw [ht, Chk.ok_bind]
      simp only
      rw [show checkArg true t [] = .ok [] from rfl, Chk.ok_bind, h1]
      rfl

/-- `strcat(x, y, ...)` -/
theorem resolve_strcat {f : Front} (hT : Tables f) {T : Name} {fs : List (Name × Tag)} (h : TableFor f T fs)
    (hv : symInfo f (.arg 0) = .ok (.loc (-1), some (.named T))) {x y : List UInt8} {as : List JPiece} {es : List CExpr} {σ : List (List UInt8)}
    (he : List.Forall₂ (JPiece.Is σ) (.text x :: .text y :: as) es) (hr : ∀ a ∈ as, PieceReady f fs a) :
    ∃ es', resolveE f (.call (bytes "strcat") es) = .ok (.call (bytes "strcat") es', .str) ∧
      List.Forall₂ (JPiece.Typed σ T) (.text x :: .text y :: as) es' := by
  obtain ⟨i, hi⟩ := h.strcat
  cases he with
  | cons h1 he =>
    cases he with
    | cons h2 he =>
      cases h1 with
      | text k1 =>
        cases h2 with
        | text k2 =>
          rename_i e i1 i2
          obtain ⟨es', h3, h4⟩ := resolve_pieces hT h hv he hr
          refine ⟨.str i1 :: .str i2 :: es', ?_, .cons (.text k1) (.cons (.text k2) h4)⟩
          rw [resolveE, hi]
          simp only [Sym.sig, List.map_cons, List.map_nil]
          have : resolveArgs f true [some .str, some .str] (.str i1 :: .str i2 :: e) = .ok (.str i1 :: .str i2 :: es') := by
            rw [resolveArgs, resolveE, Chk.ok_bind]
            simp only
            rw [show checkArg true .str [some .str, some .str] = .ok [some .str] from rfl, Chk.ok_bind, resolveArgs, resolveE, Chk.ok_bind]
            simp only
            rw [show checkArg true .str [some .str] = .ok [] from rfl, Chk.ok_bind, h3]
            rfl
          rw [this]
          rfl

/-! ## Code -/

theorem gen_pieces {f : Front} {T : Name} {fs : List (Name × Tag)} (h : TableFor f T fs) (hl : fs.length ≤ 256) {as : List JPiece} {es : List Expr}
    {σ : List (List UInt8)} (he : List.Forall₂ (JPiece.Typed σ T) as es) : (∀ a ∈ as, PieceReady f fs a) →
    GenEs (globalsOf f) es ∧ FitEs (globalsOf f) es := by
  induction he with
  | nil => intro; simp [GenEs, FitEs]
  | cons ha _ ih =>
    intro hr
    have h1 := ih fun a ha => hr a (by simp [ha])
    simp only [GenEs, FitEs]
    refine ⟨⟨?_, h1.1⟩, ⟨?_, h1.2⟩⟩
    · cases ha with
      | text => simp [GenE]
      | @field g p =>
        obtain ⟨ft, x, k1, k2, k3⟩ := hr (.field g p) (by simp)
        simp only [GenE, GenEs, and_true]
        refine ⟨T, fs, rfl, ?_, hl, ?_⟩
        · unfold globalsOf
          simp only [info_of h.type]
        · cases hf : fs.find? (·.1 = p) with
          | none => rw [hf] at k1; cases k1
          | some q => exact ⟨q, List.mem_of_find?_eq_some hf, by simpa using List.find?_some hf⟩
    · cases ha with
      | text => simp [FitE]
      | @field g p =>
        obtain ⟨ft, x, k1, k2, k3⟩ := hr (.field g p) (by simp)
        simp only [FitE, FitEs, List.length_cons, List.length_nil, and_true]
        refine ⟨?_, by omega, rfl⟩
        unfold globalsOf
        simp only [k2, Option.bind_some]
        cases x with
        | func fi => exact ⟨_, rfl, trivial⟩
        | foreign n i ps va r =>
          refine ⟨_, rfl, ?_⟩
          rcases k3 with ⟨rfl, rfl⟩ | ⟨q, rfl, -⟩
          · exact .inl ⟨rfl, by simp⟩
          · exact .inr rfl
        | _ => exact k3.elim


/-! ## The function -/

/-- The pieces for the fields. -/
def jsonPieces : List (Name × Name) → List JPiece
  | [] => []
  | [p] => [.text (jsonKey p.1), .field (jsonFn p.2) p.1]
  | p :: q :: ps => .text (jsonKey p.1) :: .field (jsonFn p.2) p.1 :: .text (bytes ",") :: jsonPieces (q :: ps)

theorem jsonPieces_source : ∀ fs : List (Name × Name), (jsonPieces fs).map JPiece.source = jsonArgs fs
  | [] => rfl
  | [p] => rfl
  | p :: q :: ps => by
    rw [jsonPieces, jsonArgs, List.map_cons, List.map_cons, List.map_cons, jsonPieces_source (q :: ps)]
    rfl

theorem jsonPieces_length : ∀ fs : List (Name × Name), (jsonPieces fs).length ≤ 3 * fs.length
  | [] => by simp [jsonPieces]
  | [p] => by simp [jsonPieces]
  | p :: q :: ps => by
    have := jsonPieces_length (q :: ps)
    simp only [jsonPieces, List.length_cons] at this ⊢
    omega

theorem jsonPieces_text : ∀ (fs : List (Name × Name)) {x : List UInt8}, JPiece.text x ∈ jsonPieces fs → x = bytes "," ∨ ∃ p ∈ fs, x = jsonKey p.1
  | [], x, h => by simp [jsonPieces] at h
  | [p], x, h => by simp [jsonPieces] at h; exact .inr ⟨p, by simp, h⟩
  | p :: q :: ps, x, h => by
    simp only [jsonPieces, List.mem_cons, JPiece.text.injEq, reduceCtorEq, false_or] at h
    rcases h with h | h | h
    · exact .inr ⟨p, by simp, h⟩
    · exact .inl h
    · rcases jsonPieces_text (q :: ps) h with h | ⟨r, hr, h⟩
      · exact .inl h
      · exact .inr ⟨r, List.mem_cons_of_mem _ hr, h⟩

theorem jsonPieces_field : ∀ (fs : List (Name × Name)) {g p : Name}, JPiece.field g p ∈ jsonPieces fs → ∃ q ∈ fs, g = jsonFn q.2 ∧ p = q.1
  | [], g, p, h => by simp [jsonPieces] at h
  | [q], g, p, h => by simp [jsonPieces] at h; exact ⟨q, by simp, h⟩
  | q :: q' :: ps, g, p, h => by
    simp only [jsonPieces, List.mem_cons, JPiece.field.injEq, reduceCtorEq, false_or] at h
    rcases h with h | h
    · exact ⟨q, by simp, h⟩
    · obtain ⟨r, hr, h⟩ := jsonPieces_field (q' :: ps) h
      exact ⟨r, List.mem_cons_of_mem _ hr, h⟩

theorem jsonPieces_head {fs : List (Name × Name)} (h : fs ≠ []) : ∃ y as, jsonPieces fs = .text y :: as := by
  match fs with
  | [p] => exact ⟨_, _, rfl⟩
  | p :: q :: ps => exact ⟨_, _, rfl⟩

/-- There are not too many fields. -/
theorem json_few {T : Name} {fs : List (Name × Tag)} (h : (jsonText T (fieldNames fs)).length < 2048) : fs.length ≤ 71 := by
  cases fs with
  | nil => simp
  | cons p fs =>
    have e1 : jsonText T (fieldNames (p :: fs)) = jsonHead T ++ (jsonField p.1 p.2.name ++ laterText fs) ++ jsonTail := by
      rw [jsonText, fieldsText_cons]
    have e2 : ∀ fs : List (Name × Tag), 30 * fs.length ≤ (laterText fs).length := by
      intro fs
      induction fs with
      | nil => simp
      | cons q fs ih =>
        have a1 : jsonSep.length = 9 := by decide +kernel
        have a2 : (nameOf "\"\\\"").length = 3 := by decide +kernel
        have a3 : (nameOf "\\\":\", ").length = 6 := by decide +kernel
        have a4 : (nameOf "_to_json(v.").length = 11 := by decide +kernel
        have a5 : (nameOf ")").length = 1 := by decide +kernel
        simp only [laterText, List.flatMap_cons, List.length_append, jsonField, a1, a2, a3, a4, a5, List.length_cons] at ih ⊢
        omega
    have := e2 fs
    rw [e1] at h
    simp only [List.length_append, List.length_cons] at h ⊢
    omega

theorem ident_zero {n : Name} (h : IsIdent n) : 0 ∉ n := by
  cases h with
  | ident h => exact word_zero h

theorem json_zero {T : Name} {fs : List (Name × Name)} (hT : IsIdent T) (h : ∀ p ∈ fs, IsIdent p.1 ∧ IsIdent p.2) : 0 ∉ jsonText T fs := by
  have e : 0 ∉ jsonFieldsText fs := by
    have : ∀ f t : Name, IsIdent f → IsIdent t → 0 ∉ jsonField f t := by
      intro f t hf ht
      simp only [jsonField, List.mem_append, not_or]
      exact ⟨⟨⟨⟨⟨⟨by decide +kernel, ident_zero hf⟩, by decide +kernel⟩, ident_zero ht⟩, by decide +kernel⟩, ident_zero hf⟩, by decide +kernel⟩
    match fs with
    | [] => simp [jsonFieldsText]
    | p :: ps =>
      clear hT
      induction ps generalizing p with
      | nil => exact this _ _ (h p (by simp)).1 (h p (by simp)).2
      | cons q ps ih =>
        simp only [jsonFieldsText, List.mem_append, not_or]
        exact ⟨⟨this _ _ (h p (by simp)).1 (h p (by simp)).2, by decide +kernel⟩, ih q fun r hr => h r (List.mem_cons_of_mem _ hr)⟩
  simp only [jsonText, jsonHead, List.mem_append, not_or]
  exact ⟨⟨⟨⟨⟨⟨by decide +kernel, ident_zero hT⟩, by decide +kernel⟩, ident_zero hT⟩, by decide +kernel⟩, e⟩, by decide +kernel⟩

theorem fieldNames_mem {fs : List (Name × Tag)} {q : Name × Name} (h : q ∈ fieldNames fs) : ∃ p ∈ fs, q = (p.1, p.2.name) := by
  obtain ⟨p, hp, rfl⟩ := List.mem_map.1 h
  exact ⟨p, hp, rfl⟩

theorem find_field {fs : List (Name × Tag)} (hd : (fs.map Prod.fst).Nodup) {p : Name × Tag} (hp : p ∈ fs) :
    fs.find? (·.1 = p.1) = some p := by
  induction fs with
  | nil => cases hp
  | cons q fs ih =>
    rw [List.find?_cons]
    rw [List.map_cons, List.nodup_cons] at hd
    rcases List.mem_cons.1 hp with rfl | hp
    · simp
    · have : q.1 ≠ p.1 := fun e => hd.1 (e ▸ List.mem_map.2 ⟨p, hp, rfl⟩)
      simp only [this, decide_false]
      exact ih hd.2 hp

theorem type_named (l : List Sym) (n : Name) : l.find? (fun x => (x.asType n).isSome) = l.find? (IsTypeNamed n) := by
  congr 1
  funext x
  rw [asType_named]
  by_cases h : IsTypeNamed n x <;> simp [h]

/-- The unit of a struct's function: what its tree is, with names and types. -/
def JsonUnit (u : Name × List (Name × Tag)) (p : Front × List Stmt) : Prop :=
  ∃ fi es, p.2 = [.node 1 (.proc fi.index 1 0 (.node 1 (.block [.node 2 (.ret (some (.call (bytes "strcat") es)))])))] ∧
    referenceFunction p.1.syms (jsonFn u.1) = some (.func fi) ∧ (∀ q ∈ u.2, IsIdent q.1) ∧
    List.Forall₂ (JPiece.Typed p.1.strings u.1) (.text (bytes "{") :: jsonPieces (fieldNames u.2) ++ [.text (bytes "}")]) es ∧
    TableFor p.1 u.1 u.2 ∧ (u.2.map Prod.fst).Nodup ∧ ∀ q ∈ u.2, ∃ x, referenceFunction p.1.syms (jsonFn q.2.name) = some x ∧ TakesOne q.2 x

/-- Symbols and strings have only been added. -/
def PrefixTo (f f' : Front) : Prop := f.syms <+: f'.syms ∧ f.strings <+: f'.strings

theorem PrefixTo.trans {f g h : Front} (a : PrefixTo f g) (b : PrefixTo g h) : PrefixTo f h := ⟨a.1.trans b.1, a.2.trans b.2⟩

/-- What the macro compiles for the struct `T`, when there are functions for the types of the fields. -/
theorem compile_json {E : CompileEnv} {f0 : Front} {L : Name → Prop} (hm : ¬ TooMany f0 L) {s : TState} (hT : Tables s.front)
    (hc : s.front.currFunc = .none) (hn : s.nest < maxNest) (hr : Room L f0.strings s.front.strings) {T : Name} {fs : List (Name × Tag)}
    (ht : TableFor s.front T fs) (hp : primTag T = none) (hi : IsIdent T) (h0 : fs ≠ []) (hd : (fs.map Prod.fst).Nodup)
    (hfi : ∀ p ∈ fs, IsIdent p.1 ∧ IsIdent p.2.name) (hl : (jsonText T (fieldNames fs)).length < 2048)
    (hnone : referenceFunction s.front.syms (jsonFn T) = none) (hL : ∀ x ∈ [bytes "{", bytes "}", bytes ",", bytes "(json mod)"], L x) (hk : ∀ p ∈ fs, L (jsonKey p.1))
    (hx : ∀ p ∈ fs, ∃ x, referenceFunction s.front.syms (jsonFn p.2.name) = some x ∧ TakesOne p.2 x) :
    ∃ N s' σ us nx rest, sourceTokens E.strtod (jsonText T (fieldNames fs)) = us ++ nx :: rest ∧ ProgIs [jsonFunc T (fieldNames fs)] us nx ∧
      (∀ k, N ≤ k → compileString { E with fuel := k } (some (bytes "(json mod)")) (jsonText T (fieldNames fs)) s = .ok true s') ∧
      s'.front = lineAfter s.front (jsonFn T) [(bytes "v", .named T)] .str σ ∧ Room L f0.strings σ ∧ s'.nest = s.nest ∧ Tables s'.front ∧
      ∃ p, Session s s' [p] ∧ JsonUnit (T, fs) p ∧ PrefixTo p.1 s'.front ∧ PrefixTo s.front s'.front := by
  have hnames : ∀ p ∈ fieldNames fs, IsIdent p.1 ∧ IsIdent p.2 := by
    intro p hp
    obtain ⟨q, hq, rfl⟩ := fieldNames_mem hp
    exact hfi q hq
  have hne : fieldNames fs ≠ [] := by simpa [fieldNames] using h0
  have hz := json_zero hi hnames
  obtain ⟨m, hlines⟩ := lines_json hi hne hnames
  obtain ⟨us, nx, rest, k1, k2, k3, k4⟩ := source_lines (strtod := E.strtod) hz hlines
  have hprog := prog_json hne k3 k2
  have htail := Session1.tail_of hz k4
  -- the statement
  let as : List JPiece := .text (bytes "{") :: jsonPieces (fieldNames fs) ++ [.text (bytes "}")]
  have has : as.map JPiece.source = .str (bytes "{") :: jsonArgs (fieldNames fs) ++ [.str (bytes "}")] := by
    simp only [as, List.map_cons, List.map_append, jsonPieces_source, List.map_nil]
    rfl
  let ps : List (Name × Tag) := [(bytes "v", .named T)]
  let fb := lineIn s.front (jsonFn T) ps .str
  have hv : ∀ σ, referenceVariable (bytes "v") { fb with strings := σ } = .ok (some (.arg 0)) { fb with strings := σ } := by
    intro σ
    have e : currentFunc { fb with strings := σ } = .ok (some (lineFunc s.front (jsonFn T) ps .str)) { fb with strings := σ } := by
      unfold currentFunc
      simp [fb, lineIn]
    unfold referenceVariable
    rw [Act.bind_apply, e]
    simp [lineFunc, lookupFunc, lineArgs, ps, act_pure_ok]
  have hlit : ∀ x, JPiece.text x ∈ as → L x := by
    intro x hx
    simp only [as, List.cons_append, List.mem_cons, List.mem_append, JPiece.text.injEq, List.not_mem_nil, or_false] at hx
    rcases hx with rfl | hx | rfl
    · exact hL _ (by simp)
    · rcases jsonPieces_text _ hx with rfl | ⟨q, hq, rfl⟩
      · exact hL _ (by simp)
      · obtain ⟨p, hp, rfl⟩ := fieldNames_mem hq
        exact hk p hp
    · exact hL _ (by simp)
  obtain ⟨es, σ, n1, n2, n3⟩ := name_pieces hm as (f := fb) hv hr hlit
  let b' : CStmt := .node 2 (.ret (some (.call (bytes "strcat") es)))
  have hcf : currentFunc fb = .ok (some (lineFunc s.front (jsonFn T) ps .str)) fb := by
    unfold currentFunc
    simp [fb, lineIn]
  have hb : nameStmt frontOps (.node 2 (.ret (some (.call (bytes "strcat") (.str (bytes "{") :: jsonArgs (fieldNames fs) ++ [.str (bytes "}")]))))) fb =
      .ok b' { fb with strings := fb.strings ++ σ } := by
    have e1 : frontOps.inFunc fb = .ok () fb := by
      show requireFunc true fb = _
      simp [requireFunc, Act.bind_apply, act_get_ok, fb, lineIn, act_pure_ok]
    have e2 : frontOps.valueFunc fb = .ok () fb := by
      show requireValueFunc fb = _
      unfold requireValueFunc
      rw [Act.bind_apply, hcf]
      rfl
    rw [nameStmt, nameStmt, nameExpr, ← has]
    simp only [Act.bind_apply, e1, e2, n1, act_pure_ok]
    rfl
  -- after the function
  let f1 := lineAfter s.front (jsonFn T) ps .str (fb.strings ++ σ)
  let f2 : Front := { f1 with currFunc := .at s.front.syms.length }
  have hfun : ∀ {n x}, referenceFunction s.front.syms n = some x → referenceFunction f1.syms n = some x := by
    intro n x h
    unfold referenceFunction at h ⊢
    show (s.front.syms ++ _).find? _ = _
    rw [List.find?_append, h]
    rfl
  have ht1 : ∀ cf, TableFor { f1 with currFunc := cf } T fs := by
    intro cf
    refine ⟨?_, ?_⟩
    · show (s.front.syms ++ _).find? _ = _
      rw [List.find?_append, ht.type]
      rfl
    · obtain ⟨i, hi⟩ := ht.strcat
      exact ⟨i, hfun hi⟩
  have hpr : ∀ cf, ∀ a ∈ as, PieceReady { f1 with currFunc := cf } fs a := by
    intro cf a ha
    cases a with
    | text => trivial
    | field g p =>
      simp only [as, List.cons_append, List.mem_cons, List.mem_append, reduceCtorEq, List.not_mem_nil, or_false, false_or] at ha
      obtain ⟨q, hq, rfl, rfl⟩ := jsonPieces_field _ ha
      obtain ⟨p, hp, rfl⟩ := fieldNames_mem hq
      obtain ⟨x, hx1, hx2⟩ := hx p hp
      exact ⟨p.2, x, by rw [find_field hd hp]; rfl, hfun hx1, hx2⟩
  have hsym : symInfo f2 (.arg 0) = .ok (.loc (-1), some (.named T)) := by
    unfold symInfo
    simp [f2, f1, lineAfter, lineFunc, lineArgs, ps]
  obtain ⟨y0, as', hy0⟩ := jsonPieces_head hne
  have has2 : as = .text (bytes "{") :: .text y0 :: (as' ++ [.text (bytes "}")]) := by simp [as, hy0]
  have hT2 : Tables f1 → Tables f2 := fun h => ⟨⟨h.slots.1, h.slots.2, h.slots.3, h.slots.4, h.slots.5, h.slots.6, h.slots.7, h.slots.8⟩, h.consts, h.args, h.rets⟩
  -- the types do not depend on the tables being in order, but `resolve_strcat` asks for it
  have hpm : ParamsMean s.front [(bytes "v", T, false)] ps := by
    refine .cons ⟨rfl, rfl, .inr ⟨hp, ?_⟩⟩ .nil
    rw [findSome_named, ← type_named, ht.type]
    rfl
  have hrm : ResultMeans s.front (some (bytes "str", false)) (some .str) := ⟨rfl, .inl (by decide +kernel)⟩
  have hT1 : Tables f1 := by
    obtain ⟨N, hN⟩ := c45_program frontOps hprog rest s.front
    have hnm := name_line hc (l := 1) (m := 1) (n := jsonFn T) hpm hrm (by simp [ps]) hb
    have := hN N (Nat.le_refl _)
    unfold lift at this
    simp only [jsonFunc, hnm] at this
    exact (parse_parsed (k1 ▸ htail) hT hc this).tables
  obtain ⟨es', r1, r2⟩ := resolve_strcat (hT2 hT1) (ht1 _) hsym (has2 ▸ n3) (fun a ha => hpr _ a (by rw [has2]; simp [ha]))
  let y : Stmt := .node 2 (.ret (some (.call (bytes "strcat") es')))
  have hy : resolveS b' f2 = .ok y f2 := by
    have e : currentFunc f2 = .ok (some (lineFunc s.front (jsonFn T) ps .str)) f2 := by
      unfold currentFunc
      simp [f2, f1, lineAfter]
    have e2 : Act.check (fun f => resolveE f (.call (bytes "strcat") es)) f2 = .ok (.call (bytes "strcat") es', .str) f2 := by
      unfold Act.check
      simp only [f2, r1]
    rw [resolveS, resolveS]
    unfold resolveRet
    simp only [Act.bind_apply, e, e2]
    rfl
  have hlen : es'.length = as.length := by rw [has2]; exact (List.Forall₂.length_eq r2).symm
  have hlen2 : as.length ≤ 215 := by
    have a1 := json_few hl
    have a2 := jsonPieces_length (fieldNames fs)
    simp only [fieldNames, List.length_map] at a2
    simp only [as, List.cons_append, List.length_cons, List.length_append, List.length_nil, fieldNames]
    omega
  have hlen3 : 2 ≤ as.length := by rw [has2]; simp
  obtain ⟨hg, hf⟩ := gen_pieces (f := f1) (ht1 f1.currFunc) (by have := json_few hl; omega) (has2 ▸ r2) (hpr f1.currFunc)
  have hfit : FitS (globalsOf f1) y := by
    simp only [y, FitS, FitE]
    refine ⟨?_, by omega, hf⟩
    obtain ⟨i, hi⟩ := (ht1 f1.currFunc).strcat
    unfold globalsOf
    refine ⟨_, by simp only [show referenceFunction f1.syms (bytes "strcat") = _ from hi, Option.bind_some]; rfl, ?_⟩
    exact .inl ⟨rfl, by simp; omega⟩
  have hfile : FileFits (fb.strings ++ σ) (some (bytes "(json mod)")) := by
    intro n e
    cases e
    exact n2.fits hm (hL _ (by simp))
  obtain ⟨N, s', ρ, c1, c7, c2, c3, c4, c5, c6⟩ := compile_line (E := E) (file := some (bytes "(json mod)")) (k1 ▸ htail) hT hc hn hprog hpm hrm (by simp [ps]) hb (fun _ => hy)
    (by simp [y, assigned]) (fun F hF => by simp only [y, GenS, GenE]; exact hg) hfit hfile
  refine ⟨N, s', fb.strings ++ σ ++ ρ, us, nx, rest, k1, hprog, ?_, c2, ?_, c5, c6, ?_⟩
  · intro k hk
    unfold compileString
    rw [show sourceTokens ({ E with fuel := k } : CompileEnv).strtod _ = _ from k1]
    exact c1 k hk
  · obtain ⟨τ, e, d1, d2⟩ := n2
    rcases ρ with _ | ⟨y1, _ | ⟨y2, ρ⟩⟩
    · rw [List.append_nil]
      exact ⟨τ, e, d1, d2⟩
    · obtain ⟨g1, g2⟩ := c4 y1 (by simp)
      cases g1
      change bytes "(json mod)" ∉ fb.strings ++ σ at g2
      rw [e, List.mem_append, not_or] at g2
      refine ⟨τ ++ [bytes "(json mod)"], by rw [e, List.append_assoc], List.nodup_append.2 ⟨d1, by simp, ?_⟩, ?_⟩
      · intro a ha b hb
        simp only [List.mem_singleton] at hb
        exact fun e => g2.2 (hb ▸ e ▸ ha)
      · intro y hy
        simp only [List.mem_append, List.mem_singleton] at hy
        rcases hy with hy | rfl
        · exact d2 y hy
        · exact ⟨g2.1, hL _ (by simp)⟩
    · simp at c3
  · refine ⟨_, c7, ⟨lineFunc s.front (jsonFn T) ps .str, es', ?_, ?_, fun q hq => (hfi q hq).1, by rw [← has2] at r2; exact r2, ht1 f1.currFunc, hd, ?_⟩, ?_, ?_⟩
    · rfl
    · unfold referenceFunction at hnone ⊢
      show (s.front.syms ++ _).find? _ = _
      rw [List.find?_append, hnone]
      simp [Sym.isFunc, lineFunc, ps]
    · intro p hp
      obtain ⟨x, hx1, hx2⟩ := hx p hp
      exact ⟨x, hfun hx1, hx2⟩
    · rw [c2]
      exact ⟨List.prefix_refl _, List.prefix_append _ _⟩
    · rw [c2]
      refine ⟨List.prefix_append _ _, ?_⟩
      show s.front.strings <+: s.front.strings ++ σ ++ ρ
      rw [List.append_assoc]
      exact List.prefix_append _ _

end Tiny
