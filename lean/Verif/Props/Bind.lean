import Verif.Proofs.Bind
import Verif.Proofs.LexText
import Verif.Props.Parse
import Verif.Props.Session

/-!
# C49: `Tiny_BindFunction`

The grammar of signatures and their meaning are in `Verif/Spec/Signature.lean`.
-/

namespace Tiny
open Spec

theorem reads_length {n : Nat} {sig : List UInt8} {ts : List Spec.Item} {e : Nat} (h : Reads n sig ts e) : ts.length ≤ sig.length := by
  induction h with
  | done => simp
  | @token n w s u t ts m hw hs hl hr ih =>
    obtain ⟨c, cs, rfl, -⟩ := hs.class.head
    simp
    omega

/-- The tokens of a text which ends. -/
theorem sig_tokens (strtod : List UInt8 → BitVec 64) {sig : List UInt8} (hz : 0 ∉ sig) {ts : List Spec.Item} {e : Nat}
    (h : Reads 1 sig ts e) : toksOf strtod (sourceTokens strtod sig) = ts.map Spec.Item.tok := by
  have hlen := reads_length h
  obtain ⟨L, E, h1, h2, h3, h4⟩ := stream_reads strtod (Reads.blank h) (sig.length + 4) (init_view hz)
    (l := Lexer.init sig) rfl (fuel := sig.length + 2) (by simp) (by omega)
  rw [sourceTokens, h1]
  clear h1
  replace h2 := congrArg (List.map Prod.fst) h2
  simp only [List.map_map, Function.comp_def] at h2
  have hE : toksOf strtod E = [] := by
    cases E with
    | nil => rfl
    | cons t E =>
      have := (h4 t (by simp)).1
      have ht : tkToken strtod t = none := by
        obtain ⟨kind, lx, val, line⟩ := t
        cases this
        rfl
      rw [toksOf, ht]
  clear h3 hlen h
  induction L generalizing ts with
  | nil =>
    cases ts with
    | nil => simpa using hE
    | cons i ts => simp at h2
  | cons t L ih =>
    cases ts with
    | nil => simp at h2
    | cons i ts =>
      simp only [List.map_cons, List.cons.injEq] at h2
      rw [List.cons_append, toksOf, h2.1, List.map_cons, ih h2.2]

/-- **C49, all cases.** Given a signature which consists of tokens, `Tiny_BindFunction` returns only if they form a
signature, no function is bound to the name, and then it binds the function the signature describes. It stops the
process (`assert`, `exit`) only if the text is no signature or the name is taken; and it reports an error (which ends the
compilation under way, or is undefined behaviour if there is none) only because of a `void?`. -/
theorem c49_outcome (strtod : List UInt8 → BitVec 64) {sig : List UInt8} (hz : 0 ∉ sig) {ts : List Spec.Item} {e : Nat}
    (h : Reads 1 sig ts e) (s : TState) :
    match tinyBindFunction strtod sig s with
    | .ok _ s' => ∃ S, SigIs S (ts.map Spec.Item.tok) ∧ FreeName s.front S.name ∧ Bound s.front S s'.front ∧
        s' = { s with front := s'.front }
    | .err _ => s.nest ≠ 0 ∧ VoidOpt (ts.map Spec.Item.tok)
    | .abort => ∀ S, SigIs S (ts.map Spec.Item.tok) → ¬ FreeName s.front S.name
    | .ub => s.nest = 0 ∧ VoidOpt (ts.map Spec.Item.tok)
    | .timeout => False := by
  have hl := c46_no_hang strtod hz (.inr ⟨ts, e, h⟩) (sig.length + 4)
  have ht : Tail3 (sourceTokens strtod sig) := by
    rcases stream_tail strtod (init_view hz) (fuel := sig.length + 2) (m := sig.length + 4) (by simp) (by simp) with h | h
    · omega
    · exact h
  have := sig_read (strtod := strtod) (n := sig.length + 5) s.front ht (by unfold sourceTokens; omega)
  rw [sig_tokens strtod hz h] at this
  rw [tinyBindFunction]
  cases hb : bindSig (sig.length + 5) ⟨sourceTokens strtod sig, s.front⟩ with
  | ok x q =>
    rw [hb] at this
    obtain ⟨S, h1, h2, h3, -⟩ := this
    exact ⟨S, h1, h2, h3, rfl⟩
  | err q =>
    rw [hb] at this
    dsimp only at this ⊢
    by_cases hn : s.nest = 0
    · rw [if_pos hn]
      exact ⟨hn, this⟩
    · rw [if_neg hn]
      exact ⟨hn, this⟩
  | abort => rw [hb] at this; exact this
  | ub => rw [hb] at this; exact this.elim
  | timeout => rw [hb] at this; exact this

/-- **C49.** Every signature, however its tokens are spelled and spaced, binds the function it describes, if the name is
not taken. -/
theorem c49_bind (strtod : List UInt8 → BitVec 64) {sig : List UInt8} (hz : 0 ∉ sig) {ts : List Spec.Item} {e : Nat}
    (h : Reads 1 sig ts e) {S : Signature} (hS : SigIs S (ts.map Spec.Item.tok)) (hv : ¬ VoidOpt (ts.map Spec.Item.tok)) (s : TState)
    (hf : FreeName s.front S.name) :
    ∃ f', tinyBindFunction strtod sig s = .ok () { s with front := f' } ∧ Bound s.front S f' := by
  have := c49_outcome strtod hz h s
  cases hb : tinyBindFunction strtod sig s with
  | ok x s' =>
    rw [hb] at this
    obtain ⟨S', h1, -, h3, h4⟩ := this
    cases h1.unique hS
    rw [h4]
    exact ⟨s'.front, rfl, h3⟩
  | err s' => rw [hb] at this; exact absurd this.2 hv
  | abort => rw [hb] at this; exact absurd hf (this S hS)
  | ub => rw [hb] at this; exact absurd this.2 hv
  | timeout => rw [hb] at this; exact this.elim

/-! ## The usual way to write signatures -/

theorem typeText {ty : SType} (h : Spelled ty.1 (.ident ty.1)) {u : List UInt8} {ts : List Token} (hu : NoWord u)
    (h' : TextIs u ts) :
    TextIs (SType.text ty ++ u) (if ty.2 then .ident ty.1 :: .sym .question :: ts else .ident ty.1 :: ts) := by
  obtain ⟨n, q⟩ := ty
  cases q with
  | false => exact h'.ident h hu
  | true =>
    have := (h'.sym (x := "?") (k := .question) (by decide) (noLonger_question _)).ident h (by
      intro c hc
      have : c = 63 := by simpa [bytes] using hc.symm
      subst this
      decide)
    simpa [SType.text, List.append_assoc] using this

theorem noWord_of {c : UInt8} {u : List UInt8} (h : wordByte c = false) : NoWord (c :: u) := by
  intro d hd
  simp only [List.head?_cons, Option.mem_def, Option.some.injEq] at hd
  exact hd ▸ h

theorem itemsText_is : ∀ (as : List SType) (va : Bool), (∀ ty ∈ as, Spelled ty.1 (.ident ty.1)) →
    ∀ {u : List UInt8} {ts : List Token}, TextIs u ts →
      ∃ us, TextIs (itemsText as va ++ bytes ")" ++ u) us ∧ SigItems as va us ∧ AfterArgs us = ts ∧
        us.head? ≠ some (.sym .question)
  | [], false, _, u, ts, h => by
    refine ⟨.sym .closeParen :: ts, ?_, .close, rfl, by simp⟩
    simpa [itemsText] using h.sym (x := ")") (k := .closeParen) (by decide) (noLonger_close _)
  | [], true, _, u, ts, h => by
    refine ⟨.sym .ellipsis :: .sym .closeParen :: ts, ?_, .dots .close, rfl, by simp⟩
    have := (h.sym (x := ")") (k := .closeParen) (by decide) (noLonger_close _)).sym (x := "...") (k := .ellipsis) (by decide)
      (noLonger_dots _)
    simpa [itemsText] using this
  | [ty], false, hn, u, ts, h => by
    have h1 := h.sym (x := ")") (k := .closeParen) (by decide) (noLonger_close _)
    have h2 := typeText (hn ty (by simp)) (u := bytes ")" ++ u) (noWord_of (c := 41) (by decide)) h1
    obtain ⟨n, q⟩ := ty
    refine ⟨_, by simpa [itemsText] using h2, ?_, ?_, ?_⟩
    · cases q with
      | false => exact .type (by simp) .close
      | true => exact .opt .close
    · cases q <;> rfl
    · cases q <;> simp
  | [ty], true, hn, u, ts, h => by
    obtain ⟨us, h1, h2, h3, h4⟩ := itemsText_is [] true (by simp) h
    have h5 := typeText (hn ty (by simp)) (noWord_of (c := 44) (by decide)) (h1.blank.sym (x := ",") (k := .comma) (by decide) (noLonger_comma _))
    obtain ⟨n, q⟩ := ty
    refine ⟨_, by simpa [itemsText, bytes] using h5, ?_, ?_, ?_⟩
    · cases q with
      | false => exact .type (by simp) (.comma h2)
      | true => exact .opt (.comma h2)
    · cases q <;> simpa [AfterArgs] using h3
    · cases q <;> simp
  | ty :: ty' :: as, va, hn, u, ts, h => by
    obtain ⟨us, h1, h2, h3, h4⟩ := itemsText_is (ty' :: as) va (fun t ht => hn t (List.mem_cons_of_mem _ ht)) h
    have h5 := typeText (hn ty (by simp)) (noWord_of (c := 44) (by decide)) (h1.blank.sym (x := ",") (k := .comma) (by decide) (noLonger_comma _))
    obtain ⟨n, q⟩ := ty
    refine ⟨_, by simpa [itemsText, bytes] using h5, ?_, ?_, ?_⟩
    · cases q with
      | false => exact .type (by simp) (.comma h2)
      | true => exact .opt (.comma h2)
    · cases q <;> simpa [AfterArgs] using h3
    · cases q <;> simp

theorem voidOpt_cons {k : Token} {us : List Token} (h : VoidOpt (k :: us)) :
    (k = .ident (bytes "void") ∧ us.head? = some (.sym .question)) ∨ VoidOpt us := by
  rcases List.infix_cons_iff.mp h with h | h
  · obtain ⟨z, hz⟩ := h
    simp only [List.cons_append, List.cons.injEq, List.nil_append] at hz
    exact .inl ⟨hz.1.symm, by rw [← hz.2]; rfl⟩
  · exact .inr h

theorem voidOpt_items {as : List SType} {va : Bool} {us : List Token} (h : SigItems as va us) (hv : VoidOpt us) :
    (bytes "void", true) ∈ as ∨ VoidOpt (AfterArgs us) := by
  induction h with
  | close =>
    rcases voidOpt_cons hv with h | h
    · cases h.1
    · exact .inr h
  | comma _ ih =>
    rcases voidOpt_cons hv with h | h
    · cases h.1
    · exact ih h
  | dots _ ih =>
    rcases voidOpt_cons hv with h | h
    · cases h.1
    · exact ih h
  | type hq _ ih =>
    rcases voidOpt_cons hv with h | h
    · exact absurd h.2 hq
    · rcases ih h with h | h
      · exact .inl (List.mem_cons_of_mem _ h)
      · exact .inr h
  | @opt n as va us _ ih =>
    rcases voidOpt_cons hv with h | h
    · cases h.1
      exact .inl (by simp)
    · rcases voidOpt_cons h with h | h
      · cases h.1
      · rcases ih h with h | h
        · exact .inl (List.mem_cons_of_mem _ h)
        · exact .inr h

/-- Every signature has a text. -/
theorem c49_text {S : Signature} (h : S.WellNamed) :
    ∃ us, TextIs S.text us ∧ SigIs S us ∧ (VoidOpt us → (bytes "void", true) ∈ S.types) := by
  obtain ⟨n, as, va, r⟩ := S
  obtain ⟨hn, ht⟩ := h
  have hret : ∃ vs, TextIs (retText r) vs ∧ SigRet r vs ∧
      (VoidOpt vs → (bytes "void", true) ∈ r.toList) := by
    cases r with
    | none => exact ⟨[], .nil, .none (by simp), fun h => by simp [VoidOpt] at h⟩
    | some ty =>
      have h1 := typeText (ty := ty) (ht ty (by simp [Signature.types])) (u := []) (ts := []) (by intro c hc; cases hc) .nil
      have h2 := h1.blank.sym (x := ":") (k := .colon) (by decide) (noLonger_colon _)
      obtain ⟨m, q⟩ := ty
      refine ⟨_, by simpa [retText, bytes] using h2, ?_, ?_⟩
      · cases q with
        | false => exact .type (by simp)
        | true => exact .opt
      · intro hv
        rcases voidOpt_cons hv with h | hv
        · cases h.1
        cases q with
        | false =>
          rcases voidOpt_cons hv with h | h
          · cases h.2
          · simp [VoidOpt] at h
        | true =>
          rcases voidOpt_cons hv with h | h
          · cases h.1
            simp
          · rcases voidOpt_cons h with h | h
            · cases h.1
            · simp [VoidOpt] at h
  obtain ⟨vs, h1, h2, hv⟩ := hret
  obtain ⟨us, h3, h4, h5, -⟩ := itemsText_is as va (fun ty hty => ht ty (List.mem_append_left _ hty)) h1
  have h6 := (h3.sym (x := "(") (k := .openParen) (by decide) (noLonger_open _)).ident hn (u := bytes "(" ++ _) (noWord_of (c := 40) (by decide))
  refine ⟨_, by simpa [Signature.text, List.append_assoc] using h6, .full h4 (h5 ▸ h2), fun h => ?_⟩
  rcases voidOpt_cons h with h | h
  · cases h.2
  · rcases voidOpt_cons h with h | h
    · cases h.1
    · rcases voidOpt_items h4 h with h | h
      · exact List.mem_append_left _ h
      · exact List.mem_append_right _ (hv (h5 ▸ h))

theorem word_zero {s : List UInt8} (h : IsWord s) : 0 ∉ s := fun h0 => by
  have := isWord_all h 0 h0
  exact absurd this (by decide)

theorem ident_word {n : List UInt8} (h : Spelled n (.ident n)) : IsWord n := IsIdent.word h

theorem typeText_zero {ty : SType} (h : Spelled ty.1 (.ident ty.1)) : 0 ∉ SType.text ty := by
  have := word_zero (ident_word h)
  unfold SType.text
  split
  · simpa [bytes] using this
  · exact this

theorem itemsText_zero : ∀ (as : List SType) (va : Bool), (∀ ty ∈ as, Spelled ty.1 (.ident ty.1)) → 0 ∉ itemsText as va
  | [], false, _ => by simp [itemsText]
  | [], true, _ => by simp [itemsText, bytes]
  | [ty], false, h => by simpa [itemsText] using typeText_zero (h ty (by simp))
  | [ty], true, h => by
    have := typeText_zero (h ty (by simp))
    simp [itemsText, bytes, this]
  | ty :: ty' :: as, va, h => by
    have h1 := typeText_zero (h ty (by simp))
    have h2 := itemsText_zero (ty' :: as) va fun t ht => h t (List.mem_cons_of_mem _ ht)
    rw [itemsText]
    simp [bytes, h1, h2]
    simp

theorem text_zero {S : Signature} (h : S.WellNamed) : 0 ∉ S.text := by
  obtain ⟨n, as, va, r⟩ := S
  obtain ⟨hn, ht⟩ := h
  have h1 := word_zero (ident_word hn)
  have h2 := itemsText_zero as va fun ty hty => ht ty (List.mem_append_left _ hty)
  cases r with
  | none => simpa [Signature.text, retText, bytes] using ⟨h1, h2⟩
  | some ty =>
    have h3 := typeText_zero (ht ty (by simp [Signature.types]))
    simpa [Signature.text, retText, bytes] using ⟨h1, h2, h3⟩

/-- **C49.** The usual text of a signature binds the function with that signature: for all names and types, except
`void?`. -/
theorem c49_declare (strtod : List UInt8 → BitVec 64) {S : Signature} (h : S.WellNamed) (hv : (bytes "void", true) ∉ S.types)
    (s : TState) (hf : FreeName s.front S.name) :
    ∃ f', tinyBindFunction strtod S.text s = .ok () { s with front := f' } ∧ Bound s.front S f' := by
  obtain ⟨us, h1, h2, h3⟩ := c49_text h
  obtain ⟨is, h4, rfl⟩ := h1 1
  exact c49_bind strtod (text_zero h) h4 h2 (fun h => hv (h3 h)) s hf

/-! ## What follows for programs -/

/-- **C49.** After the binding, calls of the function are checked against the types of the signature, and call the
function bound; unless an earlier source has defined a function of that name. -/
theorem c49_typed {f f' : Front} {S : Signature} (h : Bound f S f') (hf : FreeName f S.name)
    (hn : ∀ fi, Sym.func fi ∈ f.syms → fi.name ≠ S.name) :
    findFuncSymbol S.name f' = some (.foreign S.name f.numForeign (S.args.map typeMeans) S.varargs (retMeans S.ret)) ∧
      (tyEnv f').func S.name =
        some (.foreign f.numForeign S.args.length S.varargs, ⟨S.args.map typeMeans, S.varargs, retMeans S.ret⟩) := by
  obtain ⟨ms, ha, rfl⟩ := h
  have h0 : ∀ x ∈ f.syms ++ ms, Sym.isFunc S.name x = false := by
    intro x hx
    rcases List.mem_append.mp hx with hx | hx
    · cases x with
      | func fi => simpa [Sym.isFunc] using hn fi hx
      | «foreign» m i ts va r =>
        simp only [Sym.isFunc, beq_eq_false_iff_ne, ne_eq]
        rintro rfl
        exact hf _ _ _ _ hx
      | _ => rfl
    · rcases ha.only x hx with ⟨_, _, _, _, rfl⟩ | ⟨_, _, _, rfl⟩ <;> rfl
  have h1 : referenceFunction (f.syms ++ ms ++ [Sym.foreign S.name f.numForeign (S.args.map typeMeans) S.varargs (retMeans S.ret)]) S.name =
      some (.foreign S.name f.numForeign (S.args.map typeMeans) S.varargs (retMeans S.ret)) := by
    rw [referenceFunction, List.find?_append, List.find?_eq_none.mpr fun x hx => by simp [h0 x hx]]
    simp [Sym.isFunc]
  refine ⟨h1, ?_⟩
  show (referenceFunction _ _).bind symSig = _
  rw [h1]
  have h2 : ∀ l : List Tag, allSome (l.map some) = some l := by
    intro l
    induction l with
    | nil => rfl
    | cons a l ih => simp [allSome, ih]
  simp only [Option.bind_some, symSig, Sym.fnSym, Sym.sig]
  rw [h2]
  simp

/-- **C49.** Binding functions is part of setting up a state, and of a session (C48). -/
theorem c49_calls (strtod : List UInt8 → BitVec 64) {sig : List UInt8} (hz : 0 ∉ sig)
    (hl : (sourceTokens strtod sig).length = sig.length + 4) {s s' : TState} (h : tinyBindFunction strtod sig s = .ok () s') :
    Calls s.front s'.front ∧ s' = { s with front := s'.front } := by
  have ht : Tail3 (sourceTokens strtod sig) := by
    rcases stream_tail strtod (init_view hz) (fuel := sig.length + 2) (m := sig.length + 4) (by simp) (by simp) with h | h
    · exact absurd hl (by unfold sourceTokens; omega)
    · exact h
  have := sig_read (strtod := strtod) (n := sig.length + 5) s.front ht (by omega)
  rw [tinyBindFunction] at h
  cases hb : bindSig (sig.length + 5) ⟨sourceTokens strtod sig, s.front⟩ with
  | ok x q =>
    rw [hb] at this h
    cases h
    obtain ⟨S, -, -, -, h4⟩ := this
    exact ⟨h4, rfl⟩
  | err q =>
    rw [hb] at h
    dsimp only at h
    split at h <;> cases h
  | _ => rw [hb] at h; cases h

theorem setup_calls {f f' : Front} (h : Setup f) (hc : Calls f f') : Setup f' := by
  induction hc with
  | refl => exact h
  | tail _ h ih => exact .call ih h

theorem session_calls {s0 s : TState} {ps : List (Front × List Stmt)} (h : Session s0 s ps) {f : Front} (hc : Calls s.front f) :
    Session s0 { s with front := f } ps := by
  induction hc with
  | refl => exact h
  | @tail b c _ h ih => exact Session.call (s := { s with front := b }) ih h

/-- **C49**: see `c49_calls`. -/
theorem c49_session (strtod : List UInt8 → BitVec 64) {sig : List UInt8} (hz : 0 ∉ sig)
    (hl : (sourceTokens strtod sig).length = sig.length + 4) {s s' : TState} (h : tinyBindFunction strtod sig s = .ok () s') :
    (Setup s.front → Setup s'.front) ∧ ∀ s0 ps, Session s0 s ps → Session s0 s' ps := by
  obtain ⟨h1, h2⟩ := c49_calls strtod hz hl h
  refine ⟨fun h => setup_calls h h1, fun s0 ps hs => ?_⟩
  rw [h2]
  exact session_calls hs h1

/-- **C49.** `Tiny_FindTypeSymbol` finds a type by its name unless it is unknown, or a struct which is not defined. -/
theorem c49_findType (f : Front) (n : Name) :
    findTypeSymbol n f = some (typeNamed n) ∨
      (findTypeSymbol n f = none ∧ (∀ p ∈ builtinTypes, bytes p.1 ≠ n) ∧
        ((∀ x ∈ f.syms, IsTypeNamed n x = false) ∨ ∃ m fs, f.syms.find? (IsTypeNamed n) = some (.struct m false fs))) := by
  have hfun : (fun x : Sym => (x.asType n).isSome) = IsTypeNamed n := by
    funext x
    rw [asType_named]
    cases h : IsTypeNamed n x <;> simp
  unfold findTypeSymbol
  rw [hfun]
  cases hp : primTag n with
  | some t => rw [typeNamed_prim hp]; exact .inl rfl
  | none =>
    rw [typeNamed_find hp]
    dsimp only
    cases hf : f.syms.find? (IsTypeNamed n) with
    | none => exact .inr ⟨rfl, prim_none.mp hp, .inl (by simpa using List.find?_eq_none.mp hf)⟩
    | some x =>
      have hx := List.find?_some hf
      cases x with
      | ftype m =>
        simp only [IsTypeNamed, beq_iff_eq] at hx
        exact .inl (by simp [Sym.asType, hx])
      | struct m d fs =>
        cases d with
        | false => exact .inr ⟨rfl, prim_none.mp hp, .inr ⟨m, fs, rfl⟩⟩
        | true =>
          simp only [IsTypeNamed, beq_iff_eq] at hx
          exact .inl (by simp [Sym.asType, hx])
      | _ => cases hx

/-- Conversely, it returns nothing for an undefined struct, so that the two cases of `c49_findType` exclude each other. -/
theorem c49_findType_none (f : Front) (n : Name) (h : ∀ p ∈ builtinTypes, bytes p.1 ≠ n)
    (h' : (∀ x ∈ f.syms, IsTypeNamed n x = false) ∨ ∃ m fs, f.syms.find? (IsTypeNamed n) = some (.struct m false fs)) :
    findTypeSymbol n f = none := by
  have hfun : (fun x : Sym => (x.asType n).isSome) = IsTypeNamed n := by
    funext x
    rw [asType_named]
    cases h : IsTypeNamed n x <;> simp
  unfold findTypeSymbol
  rw [hfun, prim_none.mpr h]
  rcases h' with h' | ⟨m, fs, h'⟩
  · rw [List.find?_eq_none.mpr (by simpa using h')]
  · rw [h']

/-! ## Concrete cases -/

/-- `find(Node?, int, ...): Node`, where `Node` has not been mentioned before. -/
def sigFind : Signature := ⟨bytes "find", [(bytes "Node", true), (bytes "int", false)], true, some (bytes "Node", false)⟩

theorem identOf {s : List UInt8} (h : IsWord s) (h1 : ∀ k ∈ keywords, s ≠ bytes k.1) (h2 : s ≠ bytes "true") (h3 : s ≠ bytes "false") :
    Spelled s (.ident s) := .ident h h1 h2 h3

theorem sigFind_named : sigFind.WellNamed := by
  refine ⟨identOf ⟨by decide, by decide⟩ (by decide) (by decide) (by decide), ?_⟩
  intro ty h
  simp only [sigFind, Signature.types, Option.toList_some, List.cons_append, List.nil_append, List.mem_cons,
    List.not_mem_nil, or_false] at h
  rcases h with rfl | rfl | rfl <;> exact identOf ⟨by decide, by decide⟩ (by decide) (by decide) (by decide)

example : sigFind.text = bytes "find(Node?, int, ...): Node" := by decide +kernel

example : ∃ f', tinyBindFunction (fun _ => 0) sigFind.text {} = .ok () { front := f' } ∧ Bound {} sigFind f' :=
  c49_declare _ sigFind_named (by decide) {} (by intro i ts va r h; cases h)

/-- The table after it. -/
example : (match tinyBindFunction (fun _ => 0) (bytes "find(Node?, int, ...): Node") {} with
    | .ok _ s => s.front.syms
    | _ => []) =
    [.struct (bytes "Node") false [], .nullable (.named (bytes "Node")),
      .foreign (bytes "find") 0 [.nullable (.named (bytes "Node")), .int] true (.named (bytes "Node"))] := by decide +kernel

/-- The same without commas, and with something after the signature, which is ignored. -/
example : (match tinyBindFunction (fun _ => 0) (bytes "find ( Node? int ... ) : Node := 3") {} with
    | .ok _ s => s.front.syms
    | _ => []) =
    [.struct (bytes "Node") false [], .nullable (.named (bytes "Node")),
      .foreign (bytes "find") 0 [.nullable (.named (bytes "Node")), .int] true (.named (bytes "Node"))] := by decide +kernel

/-- A name alone: any arguments, any result. -/
example : (match tinyBindFunction (fun _ => 0) (bytes "print") {} with
    | .ok _ s => s.front.syms
    | _ => []) = [.foreign (bytes "print") 0 [] true .any] := by decide +kernel

/-- ★ `void?` outside of a compilation: undefined behaviour. -/
theorem c49_void_ub : (match tinyBindFunction (fun _ => 0) (bytes "f(void?)") {} with | .ub => true | _ => false) = true := by
  decide +kernel

/-- A text which is no signature stops the process. -/
theorem c49_bad_abort : (match tinyBindFunction (fun _ => 0) (bytes "f(int") {} with | .abort => true | _ => false) = true := by
  decide +kernel

/-- The next source can call the function: its type is that of the signature. -/
example {f' : Front} (h : Bound {} sigFind f') : (tyEnv f').func (bytes "find") =
    some (.foreign 0 2 true, ⟨[.nullable (.named (bytes "Node")), .int], true, .named (bytes "Node")⟩) := by
  have := (c49_typed h (by intro i ts va r h; cases h) (by intro fi h; cases h)).2
  simpa [sigFind, typeMeans, retMeans, typeNamed, builtinTypes, bytes] using this

end Tiny
