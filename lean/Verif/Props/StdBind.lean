import Verif.Model.StdBind
import Verif.Spec.StdLib
import Verif.Props.Bind

/-!
# C50: `use array("t") as a`, and what the standard library binds

The declarations are in `Verif/Spec/StdLib.lean`.
-/

namespace Tiny
open Spec

theorem isFunc_named (n : Name) : Sym.isFunc n = IsFuncNamed n := by
  funext x
  cases x <;> rfl

/-! ## Binding a list of functions -/

theorem says_text {S : Signature} (h : S.WellNamed) (hv : (bytes "void", true) ∉ S.types) : SaysSig S.text S := by
  obtain ⟨us, h1, h2, h3⟩ := c49_text h
  obtain ⟨is, h4, rfl⟩ := h1 1
  exact ⟨is, _, h4, h2, fun h => hv (h3 h), text_zero h⟩

theorem says_bare {n : Name} (h : Spelled n (.ident n)) : SaysSig n (bare n) := by
  have h1 : TextIs (n ++ []) [.ident n] := TextIs.nil.ident h (by intro c hc; cases hc)
  rw [List.append_nil] at h1
  obtain ⟨is, h2, h3⟩ := h1 1
  refine ⟨is, _, h2, ?_, ?_, word_zero (ident_word h)⟩
  · rw [h3]; exact .bare (by simp)
  · rw [h3]
    intro hv
    rcases voidOpt_cons hv with h | h
    · cases h.2
    · simp [VoidOpt] at h

/-- What a binding leaves alone. -/
theorem bound_free {f f' : Front} {S : Signature} (h : Bound f S f') {n : Name} (hn : S.name ≠ n) (hf : FreeName f n) : FreeName f' n := by
  obtain ⟨ms, ha, rfl⟩ := h
  intro i ts va r hm
  simp only [List.append_assoc, List.mem_append, List.mem_singleton] at hm
  rcases hm with hm | hm | hm
  · exact hf _ _ _ _ hm
  · rcases ha.only _ hm with ⟨_, _, _, _, h⟩ | ⟨_, _, _, h⟩ <;> cases h
  · cases hm
    exact hn rfl

theorem bindTexts_ok (strtod : List UInt8 → BitVec 64) : ∀ {xs : List (List UInt8)} {Ss : List Signature},
    List.Forall₂ SaysSig xs Ss → (Ss.map Signature.name).Nodup → ∀ s : TState, (∀ S ∈ Ss, FreeName s.front S.name) →
    ∃ f', bindTexts strtod xs s = .ok () { s with front := f' } ∧ BoundAll s.front Ss f'
  | _, _, .nil, _, s, _ => ⟨s.front, rfl, .nil⟩
  | _, _, .cons (a := x) (b := S) (l₁ := xs) (l₂ := Ss) h hs, hn, s, hf => by
    obtain ⟨ts, e, h1, h2, h3, h4⟩ := h
    obtain ⟨f1, h5, h6⟩ := c49_bind strtod h4 h1 h2 h3 s (hf S (by simp))
    simp only [List.map_cons, List.nodup_cons] at hn
    obtain ⟨f2, h7, h8⟩ := bindTexts_ok strtod hs hn.2 { s with front := f1 } fun T hT =>
      bound_free h6 (fun he => hn.1 (he ▸ List.mem_map_of_mem hT)) (hf T (List.mem_cons_of_mem _ hT))
    refine ⟨f2, ?_, .cons h6 h8⟩
    rw [bindTexts, Act.bind_apply, h5]
    exact h7

/-- If a name is taken, the process ends. -/
theorem bindTexts_taken (strtod : List UInt8 → BitVec 64) : ∀ {xs : List (List UInt8)} {Ss : List Signature},
    List.Forall₂ SaysSig xs Ss → ∀ s : TState, (∃ S ∈ Ss, ¬ FreeName s.front S.name) → bindTexts strtod xs s = .abort
  | _, _, .nil, s, h => by
    obtain ⟨S, h, -⟩ := h
    cases h
  | _, _, .cons (a := x) (b := S) (l₁ := xs) (l₂ := Ss) h hs, s, ht => by
    obtain ⟨ts, e, h1, h2, h3, h4⟩ := h
    have := c49_outcome strtod h4 h1 s
    rw [bindTexts, Act.bind_apply]
    cases hb : tinyBindFunction strtod x s with
    | ok u s' =>
      rw [hb] at this
      obtain ⟨S', h5, h6, h7, h8⟩ := this
      cases h5.unique h2
      obtain ⟨T, hT, hn⟩ := ht
      refine bindTexts_taken strtod hs s' ⟨T, ?_, ?_⟩
      · rcases List.mem_cons.mp hT with rfl | hT
        · exact (hn h6).elim
        · exact hT
      · intro hf
        apply hn
        intro i ts va r hm
        obtain ⟨ms, ha, he⟩ := h7
        exact hf i ts va r (by rw [he]; simp [hm])
    | err s' => rw [hb] at this; exact (h3 this.2).elim
    | abort => rfl
    | ub => rw [hb] at this; exact (h3 this.2).elim
    | timeout => rw [hb] at this; exact this.elim

/-- What the bindings leave alone: types, functions which were there. -/
theorem bound_none {f f' : Front} {S : Signature} (h : Bound f S f') {n : Name} (hn : S.name ≠ n) (hf : NoFunction f n) : NoFunction f' n := by
  obtain ⟨ms, ha, rfl⟩ := h
  intro x hm
  simp only [List.append_assoc, List.mem_append, List.mem_singleton] at hm
  rcases hm with hm | hm | rfl
  · exact hf _ hm
  · rcases ha.only _ hm with ⟨_, _, _, _, rfl⟩ | ⟨_, _, _, rfl⟩ <;> rfl
  · simpa [IsFuncNamed] using hn

theorem bound_prefix {f f' : Front} {S : Signature} (h : Bound f S f') : f.syms <+: f'.syms := by
  obtain ⟨ms, ha, rfl⟩ := h
  exact ⟨ms ++ [_], by rw [List.append_assoc]⟩

theorem boundAll_prefix {f f' : Front} {Ss : List Signature} (h : BoundAll f Ss f') : f.syms <+: f'.syms := by
  induction h with
  | nil => exact List.prefix_refl _
  | cons h _ ih => exact (bound_prefix h).trans ih

theorem boundAll_num {f f' : Front} {Ss : List Signature} (h : BoundAll f Ss f') : f'.numForeign = f.numForeign + Ss.length := by
  induction h with
  | nil => rfl
  | cons h _ ih =>
    obtain ⟨ms, -, rfl⟩ := h
    rw [ih, List.length_cons]
    show _ + 1 + _ = _
    omega

theorem find_prefix {l l' : List Sym} (h : l <+: l') {p : Sym → Bool} {x : Sym} (hx : l.find? p = some x) : l'.find? p = some x := by
  obtain ⟨t, rfl⟩ := h
  rw [List.find?_append, hx]
  rfl

theorem bound_declared {f f' : Front} {S : Signature} (h : Bound f S f') (hn : NoFunction f S.name) : Declared f' S f.numForeign := by
  obtain ⟨ms, ha, rfl⟩ := h
  unfold Declared
  dsimp only
  rw [List.find?_append, List.find?_eq_none.mpr]
  · simp [IsFuncNamed]
  · intro x hx
    rcases List.mem_append.mp hx with hx | hx
    · simp [hn x hx]
    · rcases ha.only _ hx with ⟨_, _, _, _, rfl⟩ | ⟨_, _, _, rfl⟩ <;> simp [IsFuncNamed]

/-- After the bindings every name means its function. -/
theorem boundAll_declared {f f' : Front} {Ss : List Signature} (h : BoundAll f Ss f') (hn : (Ss.map Signature.name).Nodup)
    (hf : ∀ S ∈ Ss, NoFunction f S.name) : ∀ (k : Nat) S, Ss[k]? = some S → Declared f' S (f.numForeign + k) := by
  induction h with
  | nil => intro k S h; cases h
  | @cons f f1 f2 S Ss h hs ih =>
    simp only [List.map_cons, List.nodup_cons] at hn
    intro k T hT
    cases k with
    | zero =>
      cases hT
      exact find_prefix (boundAll_prefix hs) (bound_declared h (hf S (by simp)))
    | succ k =>
      have := ih hn.2 (fun T hT => bound_none h (fun he => hn.1 (he ▸ List.mem_map_of_mem hT)) (hf T (List.mem_cons_of_mem _ hT))) k T hT
      obtain ⟨ms, -, rfl⟩ := h
      dsimp only at this
      rwa [show f.numForeign + (k + 1) = f.numForeign + 1 + k by omega]

/-- A declared function, as the type checker sees it. -/
theorem declared_typed {f : Front} {S : Signature} {i : Nat} (h : Declared f S i) :
    (tyEnv f).func S.name = some (.foreign i S.args.length S.varargs, ⟨S.args.map typeMeans, S.varargs, retMeans S.ret⟩) := by
  show (f.syms.find? (Sym.isFunc S.name)).bind symSig = _
  rw [isFunc_named, h]
  have h2 : ∀ l : List Tag, allSome (l.map some) = some l := by
    intro l
    induction l with
    | nil => rfl
    | cons a l ih => simp [allSome, ih]
  simp only [Option.bind_some, symSig, Sym.fnSym, Sym.sig]
  rw [h2]
  simp

/-! ## `use array("t") as a` -/

theorem under_ident {a : Name} (h : Spelled a (.ident a)) {x : List UInt8} (hx : ∀ c ∈ x, wordByte c = true) (h95 : 95 ∈ x) :
    Spelled (a ++ x) (.ident (a ++ x)) := by
  have hw := ident_word h
  have hk : ∀ w : List UInt8, 95 ∉ w → a ++ x ≠ w := by
    intro w hw he
    exact hw (he ▸ List.mem_append_right _ h95)
  refine identOf ?_ (fun k hk' => hk _ ?_) (hk _ (by decide)) (hk _ (by decide))
  · cases a with
    | nil => exact hw.elim
    | cons c cs =>
      refine ⟨hw.1, fun d hd => ?_⟩
      rcases List.mem_append.mp hd with hd | hd
      · exact hw.2 d hd
      · exact (wordByte_iff d).mp (hx d hd)
  · have : ∀ k ∈ keywords, 95 ∉ bytes k.1 := by decide +kernel
    exact this k hk'

theorem intIdent : Spelled (bytes "int") (.ident (bytes "int")) := identOf ⟨by decide, by decide⟩ (by decide) (by decide) (by decide)
theorem voidIdent : Spelled (bytes "void") (.ident (bytes "void")) := identOf ⟨by decide, by decide⟩ (by decide) (by decide) (by decide)

theorem sig_named {n r : Name} {as : List Name} {va : Bool} (hn : Spelled n (.ident n)) (ha : ∀ x ∈ as, Spelled x (.ident x))
    (hr : Spelled r (.ident r)) : (sig n as r va).WellNamed := by
  refine ⟨hn, fun ty hty => ?_⟩
  simp only [Signature.types, sig, List.mem_append, List.mem_map, Option.toList_some, List.mem_singleton] at hty
  rcases hty with ⟨x, hx, rfl⟩ | rfl
  · exact ha x hx
  · exact hr

theorem sig_plain {n r : Name} {as : List Name} {va : Bool} : (bytes "void", true) ∉ (sig n as r va).types := by
  simp [Signature.types, sig]

/-- The names are identifiers. -/
theorem arraySigs_named {a t : Name} (ha : Spelled a (.ident a)) (ht : Spelled t (.ident t)) {S : Signature} (h : S ∈ arraySigs a t) :
    S.WellNamed ∧ (bytes "void", true) ∉ S.types := by
  have hs : ∀ x : String, (∀ c ∈ bytes x, wordByte c = true) → 95 ∈ bytes x → Spelled (a ++ bytes x) (.ident (a ++ bytes x)) :=
    fun x hx h95 => under_ident ha hx h95
  have h1 : ∀ x ∈ [a], Spelled x (.ident x) := by simpa using ha
  have h2 : ∀ x ∈ [a, bytes "int"], Spelled x (.ident x) := by simpa using ⟨ha, intIdent⟩
  have h3 : ∀ x ∈ [a, bytes "int", t], Spelled x (.ident x) := by simpa using ⟨ha, intIdent, ht⟩
  have h4 : ∀ x ∈ [a, t], Spelled x (.ident x) := by simpa using ⟨ha, ht⟩
  unfold arraySigs at h
  simp only [List.cons_append, List.nil_append, List.mem_cons] at h
  rcases h with rfl | rfl | rfl | rfl | rfl | rfl | rfl | rfl | rfl | rfl | rfl | rfl | rfl | rfl | h
  · exact ⟨sig_named ha (by simp) ha, sig_plain⟩
  · exact ⟨sig_named (hs _ (by decide) (by decide)) h1 voidIdent, sig_plain⟩
  · exact ⟨sig_named (hs _ (by decide) (by decide)) h2 voidIdent, sig_plain⟩
  · exact ⟨sig_named (hs _ (by decide) (by decide)) h3 voidIdent, sig_plain⟩
  · exact ⟨sig_named (hs _ (by decide) (by decide)) h2 ht, sig_plain⟩
  · exact ⟨sig_named (hs _ (by decide) (by decide)) h2 ht, sig_plain⟩
  · exact ⟨sig_named (hs _ (by decide) (by decide)) h3 voidIdent, sig_plain⟩
  · exact ⟨sig_named (hs _ (by decide) (by decide)) h3 voidIdent, sig_plain⟩
  · exact ⟨sig_named (hs _ (by decide) (by decide)) h1 intIdent, sig_plain⟩
  · exact ⟨sig_named (hs _ (by decide) (by decide)) h4 voidIdent, sig_plain⟩
  · exact ⟨sig_named (hs _ (by decide) (by decide)) h1 ht, sig_plain⟩
  · exact ⟨sig_named (hs _ (by decide) (by decide)) h1 ht, sig_plain⟩
  · exact ⟨sig_named (hs _ (by decide) (by decide)) h2 voidIdent, sig_plain⟩
  · exact ⟨sig_named (hs _ (by decide) (by decide)) h3 voidIdent, sig_plain⟩
  · split at h
    · simp only [List.mem_singleton] at h
      subst h
      exact ⟨sig_named (hs _ (by decide) (by decide)) h1 voidIdent, sig_plain⟩
    · cases h

/-- What the macro writes are the usual texts of the signatures. -/
theorem arrayBinds_text (a t : Name) (p : Bool) (e : Tag) (he : e = .int ↔ t = bytes "int") :
    (arrayBinds a t p (e == .int)).map Prod.fst = (arraySigs a t).map Signature.text := by
  have hn : ∀ x : String, nameOf x = bytes x := fun x => (bytes_nameOf x).symm
  have hb : ∀ x y : String, bytes (x ++ y) = bytes x ++ bytes y := by
    intro x y
    simp [bytes]
  unfold arrayBinds arraySigs
  rw [List.map_append, List.map_append]
  congr 1
  · simp only [List.map_cons, List.map_nil, Signature.text, sig, itemsText, SType.text, retText, hn, List.append_assoc,
      ← hb, Bool.false_eq_true, if_false]
    simp [hb, bytes]
  · by_cases h : e = .int
    · rw [if_pos (by simpa using h), if_pos (he.mp h)]
      simp [Signature.text, sig, itemsText, SType.text, retText, hn, bytes]
    · rw [if_neg (by simpa using h), if_neg (fun h' => h (he.mpr h'))]
      rfl

theorem arraySigs_length {a t : Name} {S : Signature} (h : S ∈ arraySigs a t) : S.text.length ≤ 2 * a.length + t.length + 27 := by
  unfold arraySigs at h
  simp only [List.cons_append, List.nil_append, List.mem_cons] at h
  rcases h with rfl | rfl | rfl | rfl | rfl | rfl | rfl | rfl | rfl | rfl | rfl | rfl | rfl | rfl | h
  case inr.inr.inr.inr.inr.inr.inr.inr.inr.inr.inr.inr.inr.inr =>
    split at h
    · simp only [List.mem_singleton] at h
      subst h
      simp [Signature.text, sig, itemsText, SType.text, retText, bytes]
      omega
    · cases h
  all_goals
    simp [Signature.text, sig, itemsText, SType.text, retText, bytes]
    omega

theorem append_ne {a : Name} {x y : List UInt8} (h : x ≠ y) : a ++ x ≠ a ++ y := fun e => h (List.append_cancel_left e)

theorem arraySigs_names (a t : Name) : ((arraySigs a t).map Signature.name).Nodup := by
  have h : ∀ L : List (List UInt8), L.Nodup → (L.map (a ++ ·)).Nodup := by
    intro L hL
    exact List.Nodup.map (fun x y h => List.append_cancel_left h) hL
  unfold arraySigs
  split
  · have := h ([[]] ++ ["_clear", "_resize", "_resize_fill", "_get", "_get_index", "_set", "_set_index", "_len", "_push", "_pop", "_shift",
      "_remove", "_insert", "_sort"].map bytes) (by decide +kernel)
    simpa [sig] using this
  · have := h ([[]] ++ ["_clear", "_resize", "_resize_fill", "_get", "_get_index", "_set", "_set_index", "_len", "_push", "_pop", "_shift",
      "_remove", "_insert"].map bytes) (by decide +kernel)
    simpa [sig] using this

/-! ### Types -/

/-- `Tiny_FindTypeSymbol` finds the types. -/
theorem findType_known (f : Front) (n : Name) : (findTypeSymbol n f).isSome = true ↔ KnownType f n := by
  have hfun : (fun x : Sym => (x.asType n).isSome) = IsTypeNamed n := by
    funext x
    rw [asType_named]
    cases h : IsTypeNamed n x <;> simp
  unfold findTypeSymbol KnownType Registered
  rw [hfun]
  cases hp : primTag n with
  | some t =>
    refine ⟨fun _ => .inl ?_, fun _ => rfl⟩
    rw [prim_builtin, Option.map_eq_some_iff] at hp
    obtain ⟨p, hp, -⟩ := hp
    exact ⟨p, List.mem_of_find?_eq_some hp, by simpa using List.find?_some hp⟩
  | none =>
    dsimp only
    have hno : ¬ ∃ p ∈ builtinTypes, bytes p.1 = n := fun ⟨p, h1, h2⟩ => prim_none.mp hp p h1 h2
    cases hf : f.syms.find? (IsTypeNamed n) with
    | none => simp [hno]
    | some x =>
      have hx := List.find?_some hf
      cases x with
      | ftype m =>
        simp only [IsTypeNamed, beq_iff_eq] at hx
        subst hx
        simp [Sym.asType]
      | struct m d fs =>
        simp only [IsTypeNamed, beq_iff_eq] at hx
        subst hx
        cases d with
        | false => simp [hno]
        | true => simp [Sym.asType]
      | _ => cases hx

/-- The type it finds. -/
theorem findType_means {f : Front} {n : Name} (h : KnownType f n) : findTypeSymbol n f = some (typeNamed n) := by
  rcases c49_findType f n with h' | ⟨h', -⟩
  · exact h'
  · have := (findType_known f n).mpr h
    rw [h'] at this
    cases this

/-- `Tiny_RegisterType` registers types which are unknown. -/
theorem registerType_new {f : Front} {n : Name} (h : ¬ KnownType f n) : ∃ f', registerType n f = .ok () f' ∧ Registers f n f' := by
  have hfun : (fun x : Sym => (x.asType n).isSome) = IsTypeNamed n := by
    funext x
    rw [asType_named]
    cases h : IsTypeNamed n x <;> simp
  have hp : primTag n = none := by
    rw [prim_none]
    intro p hp he
    exact h (.inl ⟨p, hp, he⟩)
  unfold registerType
  rw [hp]
  simp only [Option.isSome_none, Bool.false_eq_true, if_false, Act.bind_apply, Act.get]
  cases hf : f.syms.find? (fun x => (x.asType n).isSome) with
  | none =>
    refine ⟨_, rfl, .inl ⟨?_, rfl⟩⟩
    rw [hfun] at hf
    simpa using List.find?_eq_none.mp hf
  | some x =>
    have hf' := hf
    rw [hfun] at hf
    have hx := List.find?_some hf
    cases x with
    | ftype m =>
      simp only [IsTypeNamed, beq_iff_eq] at hx
      subst hx
      exact (h (.inr (.inl hf))).elim
    | struct m d fs =>
      simp only [IsTypeNamed, beq_iff_eq] at hx
      subst hx
      cases d with
      | true => exact (h (.inr (.inr ⟨fs, hf⟩))).elim
      | false =>
        obtain ⟨A, B, h1, h2, h3⟩ := convertType_split hf'
        refine ⟨_, rfl, .inr ⟨A, B, fs, h1, fun x hx => ?_, by dsimp only; rw [h2]⟩⟩
        have := h3 x hx
        rw [asType_named] at this
        cases hi : IsTypeNamed m x with
        | false => rfl
        | true => rw [hi] at this; cases this
    | _ => cases hx

theorem registers_registered {f f' : Front} {n : Name} (h : Registers f n f') : Registered f' n := by
  rcases h with ⟨h, rfl⟩ | ⟨A, B, fs, -, h, rfl⟩
  · show (f.syms ++ [_]).find? _ = _
    rw [List.find?_append, List.find?_eq_none.mpr (by simpa using h)]
    simp [IsTypeNamed]
  · show (A ++ _ :: B).find? _ = _
    rw [List.find?_append, List.find?_eq_none.mpr (by simpa using h)]
    simp [IsTypeNamed]

theorem registers_funcs {f f' : Front} {n m : Name} (h : Registers f n f') : (NoFunction f' m ↔ NoFunction f m) ∧
    (FreeName f' m ↔ FreeName f m) ∧ f'.numForeign = f.numForeign := by
  rcases h with ⟨-, rfl⟩ | ⟨A, B, fs, h, -, rfl⟩
  · refine ⟨?_, ?_, rfl⟩
    · simp [NoFunction, or_imp, forall_and, IsFuncNamed]
    · simp [FreeName]
  · refine ⟨?_, ?_, rfl⟩
    · simp [NoFunction, h, or_imp, forall_and, IsFuncNamed]
    · simp [FreeName, h]

theorem typeNamed_int (t : Name) : typeNamed t = .int ↔ t = bytes "int" := by
  constructor
  · intro h
    unfold typeNamed at h
    cases hf : builtinTypes.find? (fun p => bytes p.1 == t) with
    | none => rw [hf] at h; cases h
    | some p =>
      rw [hf] at h
      have h1 := List.mem_of_find?_eq_some hf
      have h2 := List.find?_some hf
      simp only [beq_iff_eq] at h2
      have h3 : ∀ p ∈ builtinTypes, p.2 = .int → p.1 = "int" := by decide
      rw [← h2, h3 p h1 h]
  · rintro rfl
    decide

/-! ### The macro -/

theorem array_texts {a t : Name} (ha : Spelled a (.ident a)) (ht : Spelled t (.ident t)) (hl : 2 * a.length + t.length ≤ 484)
    {e : Tag} (he : e = .int ↔ t = bytes "int") (p : Bool) :
    List.Forall₂ SaysSig ((arrayBinds a t p (e == .int)).map fun x => snprintf512 x.1) (arraySigs a t) := by
  have h1 : (arrayBinds a t p (e == .int)).map (fun x => snprintf512 x.1) = (arraySigs a t).map Signature.text := by
    rw [show (fun x : List UInt8 × ArrayFn => snprintf512 x.1) = snprintf512 ∘ Prod.fst from rfl, ← List.map_map,
      arrayBinds_text a t p e he, List.map_map]
    refine List.map_congr_left fun S hS => ?_
    have := arraySigs_length hS
    exact List.take_of_length_le (by omega)
  rw [h1]
  have h2 : ∀ L : List Signature, (∀ S ∈ L, S ∈ arraySigs a t) → List.Forall₂ SaysSig (L.map Signature.text) L := by
    intro L
    induction L with
    | nil => exact fun _ => .nil
    | cons S L ih =>
      intro h
      have := arraySigs_named ha ht (h S (by simp))
      exact .cons (says_text this.1 this.2) (ih fun T hT => h T (List.mem_cons_of_mem _ hT))
  exact h2 _ fun _ h => h

theorem arrayMacro_new (strtod : List UInt8 → BitVec 64) {a t : Name} {s : TState} (hA : ¬ KnownType s.front a)
    (hT : KnownType s.front t) {f : Front} (hf : registerType a s.front = .ok () f) :
    arrayMacro strtod [t] (some a) s =
      (do bindTexts strtod ((arrayBinds a t (primitiveTag (typeNamed t)) (typeNamed t == .int)).map fun x => snprintf512 x.1)
          pure true : Act TState Bool) { s with front := f } := by
  unfold arrayMacro
  simp only [Act.bind_apply, Act.get]
  rw [if_neg (fun h => hA ((findType_known _ _).mp h)), findType_means hT]
  simp only [Act.bind_apply, onFront, hf]

/-- **C50.** `use array("t") as a`, for a type `t` and a name `a` which is no type yet: the type `a` is registered and its
functions are bound with the signatures of `arraySigs`, if these names are not taken and short enough. -/
theorem c50_array (strtod : List UInt8 → BitVec 64) {a t : Name} (ha : Spelled a (.ident a)) (ht : Spelled t (.ident t))
    (hl : 2 * a.length + t.length ≤ 484) {s : TState} (hA : ¬ KnownType s.front a) (hT : KnownType s.front t)
    (hf : ∀ S ∈ arraySigs a t, FreeName s.front S.name) :
    ∃ f₁ f', arrayMacro strtod [t] (some a) s = .ok true { s with front := f' } ∧ Registers s.front a f₁ ∧
      BoundAll f₁ (arraySigs a t) f' := by
  obtain ⟨f₁, h1, h2⟩ := registerType_new hA
  rw [arrayMacro_new strtod hA hT h1]
  obtain ⟨f', h3, h4⟩ := bindTexts_ok strtod (array_texts ha ht hl (typeNamed_int t) (primitiveTag (typeNamed t)))
    (arraySigs_names a t) { s with front := f₁ } fun S hS => (registers_funcs h2).2.1.mpr (hf S hS)
  refine ⟨f₁, f', ?_, h2, h4⟩
  simp only [Act.bind_apply, h3]
  rfl

/-- **C50.** Afterwards `a` is a type, and the names of the functions mean the functions bound; unless a source has defined
functions of those names before. -/
theorem c50_declared {a t : Name} {f f₁ f' : Front} (h1 : Registers f a f₁) (h2 : BoundAll f₁ (arraySigs a t) f')
    (hf : ∀ S ∈ arraySigs a t, NoFunction f S.name) :
    Registered f' a ∧ ∀ (k : Nat) S, (arraySigs a t)[k]? = some S → Declared f' S (f.numForeign + k) := by
  refine ⟨find_prefix (boundAll_prefix h2) (registers_registered h1), fun k S h => ?_⟩
  have := boundAll_declared h2 (arraySigs_names a t) (fun S hS => (registers_funcs h1).1.mpr (hf S hS)) k S h
  rwa [(registers_funcs (m := []) h1).2.2] at this

/-- **C50.** Using the macro again for the same name, or with the name of another type, does nothing. -/
theorem c50_again (strtod : List UInt8 → BitVec 64) {a t : Name} {s : TState} (hA : KnownType s.front a) :
    arrayMacro strtod [t] (some a) s = .ok true s := by
  unfold arrayMacro
  simp only [Act.bind_apply, Act.get]
  rw [if_pos ((findType_known _ _).mpr hA)]
  rfl

/-- **C50.** A wrong number of arguments, a missing name or an unknown type of the elements is an error, which changes
nothing. -/
theorem c50_error (strtod : List UInt8 → BitVec 64) {args : List Name} {asName : Option Name} {s : TState}
    (h : args.length ≠ 1 ∨ asName = none ∨ ∃ a t, asName = some a ∧ args = [t] ∧ ¬ KnownType s.front a ∧ ¬ KnownType s.front t) :
    arrayMacro strtod args asName s = .ok false s := by
  unfold arrayMacro
  split
  · rename_i t a
    rcases h with h | h | ⟨a', t', h1, h2, h3, h4⟩
    · simp at h
    · cases h
    · cases h1
      cases h2
      simp only [Act.bind_apply, Act.get]
      rw [if_neg (fun h => h3 ((findType_known _ _).mp h))]
      cases hf : findTypeSymbol t s.front with
      | none => rfl
      | some x => exact (h4 ((findType_known _ _).mp (by rw [hf]; rfl))).elim
  · rfl

/-- ★ **C50.** If one of the names is taken by a function of the host's, `use array` ends the process. -/
theorem c50_taken (strtod : List UInt8 → BitVec 64) {a t : Name} (ha : Spelled a (.ident a)) (ht : Spelled t (.ident t))
    (hl : 2 * a.length + t.length ≤ 484) {s : TState} (hA : ¬ KnownType s.front a) (hT : KnownType s.front t)
    (hf : ∃ S ∈ arraySigs a t, ¬ FreeName s.front S.name) : arrayMacro strtod [t] (some a) s = .abort := by
  obtain ⟨f₁, h1, h2⟩ := registerType_new hA
  rw [arrayMacro_new strtod hA hT h1]
  obtain ⟨S, hS, hf⟩ := hf
  have := bindTexts_taken strtod (array_texts ha ht hl (typeNamed_int t) (primitiveTag (typeNamed t)))
    { s with front := f₁ } ⟨S, hS, fun h => hf ((registers_funcs h2).2.1.mp h)⟩
  simp only [Act.bind_apply, this]

theorem array_get (a t : Name) : (arraySigs a t)[5]? = some (sig (a ++ bytes "_get_index") [a, bytes "int"] t) ∧
    (arraySigs a t)[7]? = some (sig (a ++ bytes "_set_index") [a, bytes "int", t] (bytes "void")) := by
  unfold arraySigs
  constructor <;> rfl

/-- **C50.** `x[i]`, for `x` of type `a`, has the type of the elements and calls `a_get_index`; `x[i] = y` calls
`a_set_index`. -/
theorem c50_index {a t : Name} {f f₁ f' : Front} (hl : a.length ≤ 245) (h1 : Registers f a f₁) (h2 : BoundAll f₁ (arraySigs a t) f')
    (hf : ∀ S ∈ arraySigs a t, NoFunction f S.name) {x i : Expr} {ti : Tag} (hx : HasType (tyEnv f') x (.named a))
    (hi : HasType (tyEnv f') i ti) :
    HasType (tyEnv f') (.index x i (some (.foreign (f.numForeign + 5) 2 false)) (some (.foreign (f.numForeign + 7) 3 false)))
      (typeNamed t) := by
  have h := (c50_declared h1 h2 hf).2
  have hg := declared_typed (h 5 _ (array_get a t).1)
  have hs := declared_typed (h 7 _ (array_get a t).2)
  have e1 : (tyEnv f').getIndex (.named a) = a ++ bytes "_get_index" := by
    show (a ++ nameOf "_get_index").take 255 = _
    rw [← bytes_nameOf, List.take_of_length_le (by simp [bytes]; omega)]
  have e2 : (tyEnv f').setIndex (.named a) = a ++ bytes "_set_index" := by
    show (a ++ nameOf "_set_index").take 255 = _
    rw [← bytes_nameOf, List.take_of_length_le (by simp [bytes]; omega)]
  have := HasType.index (Γ := tyEnv f') hx hi (e1 ▸ hg) rfl
  rw [e2] at this
  simp only [sig] at hs
  rw [hs] at this
  exact this

/-! ## Macros which call the host's functions only -/

/-- What the action does to the symbol table are calls of the host's. -/
def Hosts {α : Type} (x : Act (PS Front) α) : Prop := ∀ q, match x q with
  | .ok _ q' => Calls q.st q'.st
  | .err q' => Calls q.st q'.st
  | _ => True

theorem Hosts.bind {α β : Type} {x : Act (PS Front) α} {y : α → Act (PS Front) β} (hx : Hosts x) (hy : ∀ a, Hosts (y a)) :
    Hosts (x >>= y) := by
  intro q
  have h := hx q
  rw [Act.bind_apply]
  cases e : x q with
  | ok a q' =>
    rw [e] at h
    have h' := hy a q'
    dsimp only at h ⊢
    cases e' : y a q' with
    | ok b r => rw [e'] at h'; exact h.trans h'
    | err r => rw [e'] at h'; exact h.trans h'
    | _ => trivial
  | err q' => rw [e] at h; exact h
  | _ => trivial

theorem Hosts.pure {α : Type} (a : α) : Hosts (pure a : Act (PS Front) α) := fun _ => .refl

theorem hosts_cur : Hosts cur := by
  intro q
  unfold cur
  cases q.toks with
  | nil => trivial
  | cons t ts => exact .refl

theorem hosts_next : Hosts next := by
  intro q
  obtain ⟨ts, f⟩ := q
  unfold next
  match ts with
  | [] => trivial
  | [_] => trivial
  | _ :: _ :: _ => exact .refl

theorem hosts_fail {α : Type} : Hosts (Act.fail : Act (PS Front) α) := fun _ => trivial

theorem hosts_reject {α : Type} : Hosts (reject : Act (PS Front) α) := fun _ => .refl

/-- The same for actions on the symbol table. -/
def HostsF {α : Type} (x : Act Front α) : Prop := ∀ f, match x f with
  | .ok _ f' => Calls f f'
  | .err f' => Calls f f'
  | _ => True

theorem hosts_lift {α : Type} {x : Act Front α} (h : HostsF x) : Hosts (lift x) := by
  intro q
  have := h q.st
  unfold lift
  cases e : x q.st with
  | ok a f => rw [e] at this; exact this
  | err f => rw [e] at this; exact this
  | _ => trivial

theorem hosts_if {α : Type} {c : Prop} [Decidable c] {x y : Act (PS Front) α} (hx : Hosts x) (hy : Hosts y) :
    Hosts (if c then x else y) := by
  split
  · exact hx
  · exact hy

theorem hosts_expect (k : Tok) : Hosts (expect k) := by
  unfold expect
  exact hosts_cur.bind fun t => hosts_if (.pure ()) hosts_reject

theorem hosts_named (n : Name) : HostsF (getTagFromName n) := by
  intro f
  obtain ⟨f', h, hc, -⟩ := getTag_adds f n
  rw [h]
  exact hc

theorem hosts_nullable (t : Tag) : HostsF (makeNullable t) := by
  intro f
  unfold makeNullable
  split
  · next e =>
    split at e
    · cases e
    · exact .single (.nullable e)
  · next e =>
    split at e
    · cases e; exact .refl
    · unfold getOrCreateNullable at e
      simp only [Act.bind_apply, Act.get] at e
      split at e <;> cases e
  · trivial

theorem hosts_type : Hosts (parseType frontOps) := by
  unfold parseType
  exact (hosts_expect _).bind fun _ => hosts_cur.bind fun t => (hosts_lift (hosts_named _)).bind fun tag => hosts_next.bind fun _ =>
    hosts_cur.bind fun t' => hosts_if ((hosts_lift (hosts_nullable _)).bind fun _ => hosts_next.bind fun _ => .pure _) (.pure _)

theorem hosts_args : ∀ n, Hosts (parseSigArgs n)
  | 0 => fun _ => trivial
  | n + 1 => by
    have ih := hosts_args n
    unfold parseSigArgs
    exact hosts_cur.bind fun t => hosts_if (.pure _) (hosts_if (hosts_next.bind fun _ => ih)
      (hosts_if (hosts_next.bind fun _ => ih.bind fun r => .pure _)
        (hosts_if (hosts_type.bind fun x => ih.bind fun r => .pure _) hosts_fail)))

theorem hosts_bindFunction (n : Name) (as : List Tag) (va : Bool) (r : Tag) : Hosts (lift (bindFunction n as va r)) := by
  refine hosts_lift fun f => ?_
  cases h : bindFunction n as va r f with
  | ok u f' => exact .single (.bind h)
  | err f' =>
    unfold bindFunction at h
    simp only [Act.bind_apply, Act.get] at h
    split at h <;> cases h
  | _ => trivial

theorem hosts_sig (n : Nat) : Hosts (bindSig n) := by
  unfold bindSig parseSigRet
  exact hosts_cur.bind fun t => hosts_if (hosts_next.bind fun _ => hosts_cur.bind fun u =>
    hosts_if (hosts_next.bind fun _ => (hosts_args n).bind fun as => hosts_next.bind fun _ =>
      (hosts_cur.bind fun t => hosts_if (hosts_next.bind fun _ => hosts_cur.bind fun t => hosts_if hosts_type hosts_fail) (.pure _)).bind
        fun r => hosts_bindFunction _ _ _ _) (hosts_bindFunction _ _ _ _)) hosts_fail

end Tiny
