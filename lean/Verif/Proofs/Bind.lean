import Verif.Model.Bind
import Verif.Spec.Signature
import Verif.Spec.Session
import Verif.Proofs.ParseSound
import Verif.Proofs.ParseSafe
import Verif.Proofs.Stream
import Mathlib.Logic.Relation

/-!
# Reading signatures
-/

namespace Tiny
open Spec

/-- Some calls of the host. -/
abbrev Calls : Front → Front → Prop := Relation.ReflTransGen HostCall

/-- The tokens of a stream, up to the end of the text or an error. -/
def toksOf (strtod : List UInt8 → BitVec 64) : List Tk → List Token
  | [] => []
  | t :: ts =>
    match tkToken strtod t with
    | some k => k :: toksOf strtod ts
    | none => []

variable {strtod : List UInt8 → BitVec 64}

theorem tk_sym {t : Tk} {k : Tok} (h : tkToken strtod t = some (.sym k)) : t.kind = k := by
  obtain ⟨kind, lx, val, line⟩ := t
  unfold tkToken tokenOf at h
  cases kind <;> cases val <;> simp_all

theorem tk_ident {t : Tk} {n : Name} (h : tkToken strtod t = some (.ident n)) : t.kind = .ident ∧ t.lexeme = n := by
  obtain ⟨kind, lx, val, line⟩ := t
  unfold tkToken tokenOf at h
  cases kind <;> cases val <;> simp_all

theorem tk_of_ident {t : Tk} (h : t.kind = .ident) : tkToken strtod t = some (.ident t.lexeme) := by
  obtain ⟨kind, lx, val, line⟩ := t
  cases h
  rfl

/-- The tokens signatures are made of. -/
def punct (k : Tok) : Prop :=
  k = .closeParen ∨ k = .comma ∨ k = .ellipsis ∨ k = .question ∨ k = .colon ∨ k = .openParen

theorem tk_of_sym {t : Tk} {k : Tok} (hk : punct k) (h : t.kind = k) : tkToken strtod t = some (.sym k) := by
  obtain ⟨kind, lx, val, line⟩ := t
  cases h
  rcases hk with h | h | h | h | h | h <;> (dsimp only at h; subst h; rfl)

theorem toksOf_sym {t : Tk} {ts : List Tk} {k : Tok} (hk : punct k) (h : t.kind = k) :
    toksOf strtod (t :: ts) = .sym k :: toksOf strtod ts := by rw [toksOf, tk_of_sym hk h]

theorem toksOf_ident {t : Tk} {ts : List Tk} (h : t.kind = .ident) :
    toksOf strtod (t :: ts) = .ident t.lexeme :: toksOf strtod ts := by rw [toksOf, tk_of_ident h]

theorem toksOf_head {t : Tk} {ts : List Tk} {k : Tok} (h : (toksOf strtod (t :: ts)).head? = some (.sym k)) : t.kind = k := by
  rw [toksOf] at h
  cases ht : tkToken strtod t with
  | none => rw [ht] at h; cases h
  | some x =>
    rw [ht] at h
    simp only [List.head?_cons, Option.some.injEq] at h
    subst h
    exact tk_sym ht

theorem toksOf_cons {t : Tk} {ts : List Tk} {k : Token} {us : List Token} (h : toksOf strtod (t :: ts) = k :: us) :
    tkToken strtod t = some k ∧ toksOf strtod ts = us := by
  rw [toksOf] at h
  cases ht : tkToken strtod t with
  | none => rw [ht] at h; cases h
  | some x => rw [ht] at h; cases h; exact ⟨rfl, rfl⟩

/-! ## Types -/

theorem bytes_nameOf (s : String) : bytes s = nameOf s := by
  unfold bytes nameOf
  rfl

theorem prim_builtin (n : Name) : primTag n = (builtinTypes.find? (fun p => bytes p.1 == n)).map Prod.snd := by
  unfold primTag builtinTypes
  simp only [bytes_nameOf, @eq_comm Name n]
  by_cases h1 : nameOf "void" = n
  · rw [if_pos h1, List.find?_cons_of_pos (by simpa using h1)]; rfl
  rw [if_neg h1, List.find?_cons_of_neg (by simpa using h1)]
  by_cases h2 : nameOf "bool" = n
  · rw [if_pos h2, List.find?_cons_of_pos (by simpa using h2)]; rfl
  rw [if_neg h2, List.find?_cons_of_neg (by simpa using h2)]
  by_cases h3 : nameOf "int" = n
  · rw [if_pos h3, List.find?_cons_of_pos (by simpa using h3)]; rfl
  rw [if_neg h3, List.find?_cons_of_neg (by simpa using h3)]
  by_cases h4 : nameOf "float" = n
  · rw [if_pos h4, List.find?_cons_of_pos (by simpa using h4)]; rfl
  rw [if_neg h4, List.find?_cons_of_neg (by simpa using h4)]
  by_cases h5 : nameOf "str" = n
  · rw [if_pos h5, List.find?_cons_of_pos (by simpa using h5)]; rfl
  rw [if_neg h5, List.find?_cons_of_neg (by simpa using h5)]
  by_cases h6 : nameOf "any" = n
  · rw [if_pos h6, List.find?_cons_of_pos (by simpa using h6)]; rfl
  rw [if_neg h6, List.find?_cons_of_neg (by simpa using h6)]
  rfl

theorem prim_none {n : Name} : primTag n = none ↔ ∀ p ∈ builtinTypes, bytes p.1 ≠ n := by
  rw [prim_builtin, Option.map_eq_none_iff, List.find?_eq_none]
  simp

theorem asType_named (n : Name) (x : Sym) :
    x.asType n = if IsTypeNamed n x then some (.named n) else none := by
  cases x with
  | ftype m => by_cases h : m = n <;> simp [Sym.asType, IsTypeNamed, h]
  | struct m d fs => by_cases h : m = n <;> simp [Sym.asType, IsTypeNamed, h]
  | _ => rfl

theorem findSome_named (n : Name) : ∀ syms : List Sym,
    syms.findSome? (·.asType n) = (syms.find? (IsTypeNamed n)).map (fun _ => .named n)
  | [] => rfl
  | x :: syms => by
    rw [List.findSome?_cons, List.find?_cons, asType_named]
    cases h : IsTypeNamed n x with
    | true => simp
    | false => simpa using findSome_named n syms

theorem typeNamed_prim {n : Name} {t : Tag} (h : primTag n = some t) : typeNamed n = t := by
  rw [prim_builtin, Option.map_eq_some_iff] at h
  obtain ⟨p, hp, rfl⟩ := h
  rw [typeNamed, hp]

theorem typeNamed_find {n : Name} (h : primTag n = none) : typeNamed n = .named n := by
  rw [prim_builtin, Option.map_eq_none_iff] at h
  unfold typeNamed
  rw [h]

theorem _root_.Tiny.Spec.Adds.nil (syms : List Sym) : Adds syms [] [] where
  only := by simp
  all := by
    rintro m (⟨ty, h, -⟩ | ⟨ty, h, -⟩) <;> cases h
  once := .nil
  new := by simp

theorem _root_.Tiny.Spec.Adds.trans {syms ms ms' : List Sym} {tys tys' : List SType} (h : Adds syms tys ms) (h' : Adds (syms ++ ms) tys' ms') :
    Adds syms (tys ++ tys') (ms ++ ms') where
  only m hm := by
    rcases List.mem_append.mp hm with hm | hm
    · rcases h.only m hm with ⟨ty, h1, h2, h3, rfl⟩ | ⟨ty, h1, h2, rfl⟩
      · exact .inl ⟨ty, List.mem_append_left _ h1, h2, h3, rfl⟩
      · exact .inr ⟨ty, List.mem_append_left _ h1, h2, rfl⟩
    · rcases h'.only m hm with ⟨ty, h1, h2, h3, rfl⟩ | ⟨ty, h1, h2, rfl⟩
      · exact .inl ⟨ty, List.mem_append_right _ h1, h2, fun x hx => h3 x (List.mem_append_left _ hx), rfl⟩
      · exact .inr ⟨ty, List.mem_append_right _ h1, h2, rfl⟩
  all m hm := by
    rw [← List.append_assoc]
    rcases hm with ⟨ty, h1, h2, h3, rfl⟩ | ⟨ty, h1, h2, rfl⟩
    · rcases List.mem_append.mp h1 with h1 | h1
      · exact List.mem_append_left _ (h.all _ (.inl ⟨ty, h1, h2, h3, rfl⟩))
      · by_cases hx : ∀ x ∈ ms, IsTypeNamed ty.1 x = false
        · refine h'.all _ (.inl ⟨ty, h1, h2, fun x hx' => ?_, rfl⟩)
          rcases List.mem_append.mp hx' with hx' | hx'
          · exact h3 x hx'
          · exact hx x hx'
        · simp only [Classical.not_forall] at hx
          obtain ⟨x, hx, hn⟩ := hx
          have := h.only x hx
          rcases this with ⟨ty', -, -, -, rfl⟩ | ⟨ty', -, -, rfl⟩
          · simp only [IsTypeNamed, Bool.not_eq_false, beq_iff_eq] at hn
            rw [← hn]
            exact List.mem_append_left _ (List.mem_append_right _ hx)
          · simp [IsTypeNamed] at hn
    · rcases List.mem_append.mp h1 with h1 | h1
      · exact List.mem_append_left _ (h.all _ (.inr ⟨ty, h1, h2, rfl⟩))
      · exact h'.all _ (.inr ⟨ty, h1, h2, rfl⟩)
  once := by
    refine List.nodup_append.mpr ⟨h.once, h'.once, fun x hx y hy hxy => ?_⟩
    subst hxy
    exact h'.new x hy (List.mem_append_right _ hx)
  new m hm := by
    rcases List.mem_append.mp hm with hm | hm
    · exact h.new m hm
    · exact fun hs => h'.new m hm (List.mem_append_left _ hs)

/-- The symbols for some types have been added, by calls of the host. -/
def FrontAdds (f : Front) (tys : List SType) (f' : Front) : Prop :=
  Calls f f' ∧ ∃ ms, Adds f.syms tys ms ∧ f' = { f with syms := f.syms ++ ms }

theorem FrontAdds.nil (f : Front) : FrontAdds f [] f := ⟨.refl, [], .nil _, by simp⟩

theorem FrontAdds.trans {f f' f'' : Front} {tys tys' : List SType} (h : FrontAdds f tys f') (h' : FrontAdds f' tys' f'') :
    FrontAdds f (tys ++ tys') f'' := by
  obtain ⟨c, ms, h, rfl⟩ := h
  obtain ⟨c', ms', h', rfl⟩ := h'
  exact ⟨c.trans c', ms ++ ms', h.trans h', by simp⟩

/-- `GetTagFromName`. -/
theorem getTag_adds (f : Front) (n : Name) :
    ∃ f', getTagFromName n f = .ok (typeNamed n) f' ∧ FrontAdds f [(n, false)] f' := by
  have hcalls : ∀ {t f'}, getTagFromName n f = .ok t f' → Calls f f' := fun h => .single (.typeName h)
  cases hp : primTag n with
  | some t =>
    have he : getTagFromName n f = .ok t f := by unfold getTagFromName; rw [hp]; rfl
    rw [typeNamed_prim hp]
    refine ⟨f, he, hcalls he, [], ⟨by simp, ?_, .nil, by simp⟩, by simp⟩
    rintro m (⟨ty, h1, h2, -⟩ | ⟨ty, h1, h2, -⟩)
    · rw [List.mem_singleton] at h1
      subst h1
      rw [← prim_none, hp] at h2
      cases h2
    · rw [List.mem_singleton] at h1
      subst h1
      cases h2
  | none =>
    rw [typeNamed_find hp]
    cases hf : f.syms.find? (IsTypeNamed n) with
    | some x =>
      have he : getTagFromName n f = .ok (Tag.named n) f := by
        unfold getTagFromName
        rw [hp]
        dsimp only
        rw [Act.bind_apply]
        dsimp only [Act.get]
        rw [findSome_named, hf]
        rfl
      refine ⟨f, ?_, hcalls he, [], ⟨by simp, ?_, .nil, by simp⟩, by simp⟩
      · rw [he]
      · rintro m (⟨ty, h1, h2, h3, rfl⟩ | ⟨ty, h1, h2, -⟩)
        · rw [List.mem_singleton] at h1
          subst h1
          have := List.find?_some hf
          rw [h3 x (List.mem_of_find?_eq_some hf)] at this
          cases this
        · rw [List.mem_singleton] at h1
          subst h1
          cases h2
    | none =>
      have hn : ∀ x ∈ f.syms, IsTypeNamed n x = false := by simpa using List.find?_eq_none.mp hf
      have he : getTagFromName n f =   .ok (.named n) { f with syms := f.syms ++ [.struct n false []] } := by
        unfold getTagFromName
        rw [hp]
        dsimp only
        rw [Act.bind_apply]
        dsimp only [Act.get]
        rw [findSome_named, hf]
        rfl
      refine ⟨_, he, hcalls he, [.struct n false []], ⟨?_, ?_, by simp, ?_⟩, rfl⟩
      · intro m hm
        rw [List.mem_singleton] at hm
        subst hm
        exact .inl ⟨(n, false), by simp, prim_none.mp hp, hn, rfl⟩
      · rintro m (⟨ty, h1, h2, h3, rfl⟩ | ⟨ty, h1, h2, -⟩)
        · rw [List.mem_singleton] at h1
          subst h1
          simp
        · rw [List.mem_singleton] at h1
          subst h1
          cases h2
      · intro m hm hs
        rw [List.mem_singleton] at hm
        subst hm
        have := hn _ hs
        simp [IsTypeNamed] at this

theorem typeNamed_void {n : Name} : typeNamed n = .void ↔ n = bytes "void" := by
  constructor
  · intro h
    cases hp : primTag n with
    | some t =>
      rw [typeNamed_prim hp] at h
      subst h
      unfold primTag at hp
      rw [bytes_nameOf]
      by_cases h1 : n = nameOf "void"
      · exact h1
      · rw [if_neg h1] at hp
        repeat' split at hp
        all_goals cases hp
    | none =>
      rw [typeNamed_find hp] at h
      cases h
  · rintro rfl
    exact typeNamed_prim (by rw [bytes_nameOf]; rfl)

/-- `name?`, after `GetTagFromName`. -/
theorem nullable_adds {f f' : Front} {n : Name} (h : FrontAdds f [(n, false)] f') (hv : n ≠ bytes "void") :
    ∃ f'', makeNullable (typeNamed n) f' = .ok (.nullable (typeNamed n)) f'' ∧ FrontAdds f [(n, true)] f'' := by
  have hv' : typeNamed n ≠ .void := fun h => hv (typeNamed_void.mp h)
  have hnd : ∀ m, Needed f.syms [(n, false)] m → Needed f.syms [(n, true)] m := by
    rintro m (⟨ty, h1, h2, h3, rfl⟩ | ⟨ty, h1, h2, -⟩)
    · rw [List.mem_singleton] at h1
      subst h1
      exact .inl ⟨(n, true), by simp, h2, h3, rfl⟩
    · rw [List.mem_singleton] at h1
      subst h1
      cases h2
  obtain ⟨c, ms, h, rfl⟩ := h
  have hall : ∀ m, Needed f.syms [(n, true)] m → m ∈ f.syms ++ ms ∨ m = .nullable (typeNamed n) := by
    rintro m (⟨ty, h1, h2, h3, rfl⟩ | ⟨ty, h1, h2, rfl⟩)
    · rw [List.mem_singleton] at h1
      subst h1
      exact .inl (h.all _ (.inl ⟨(n, false), by simp, h2, h3, rfl⟩))
    · rw [List.mem_singleton] at h1
      subst h1
      exact .inr rfl
  by_cases hin : Sym.nullable (typeNamed n) ∈ f.syms ++ ms
  · have he : getOrCreateNullable (typeNamed n) { f with syms := f.syms ++ ms } =
        .ok (.nullable (typeNamed n)) { f with syms := f.syms ++ ms } := by
      unfold getOrCreateNullable
      rw [Act.bind_apply]
      dsimp only [Act.get]
      rw [if_pos (by simpa using hin)]
      rfl
    refine ⟨{ f with syms := f.syms ++ ms }, ?_, c.tail (.nullable he), ms, ⟨fun m hm => hnd m (h.only m hm), ?_, h.once, h.new⟩, rfl⟩
    · rw [makeNullable, if_neg hv', he]
    · intro m hm
      rcases hall m hm with h | rfl
      · exact h
      · exact hin
  · have he : getOrCreateNullable (typeNamed n) { f with syms := f.syms ++ ms } =
        .ok (.nullable (typeNamed n)) { f with syms := f.syms ++ ms ++ [.nullable (typeNamed n)] } := by
      unfold getOrCreateNullable
      rw [Act.bind_apply]
      dsimp only [Act.get]
      rw [if_neg (by simpa using hin)]
      rfl
    refine ⟨_, by rw [makeNullable, if_neg hv', he], c.tail (.nullable he), ms ++ [.nullable (typeNamed n)],
      ⟨?_, ?_, ?_, ?_⟩, by simp⟩
    · intro m hm
      rcases List.mem_append.mp hm with hm | hm
      · exact hnd m (h.only m hm)
      · rw [List.mem_singleton] at hm
        subst hm
        exact .inr ⟨(n, true), by simp, rfl, rfl⟩
    · intro m hm
      rcases hall m hm with h | rfl
      · rw [← List.append_assoc]
        exact List.mem_append_left _ h
      · simp
    · refine List.nodup_append.mpr ⟨h.once, by simp, fun x hx y hy hxy => ?_⟩
      rw [List.mem_singleton] at hy
      subst hy hxy
      exact hin (List.mem_append_right _ hx)
    · intro m hm
      rcases List.mem_append.mp hm with hm | hm
      · exact h.new m hm
      · rw [List.mem_singleton] at hm
        subst hm
        exact fun hs => hin (List.mem_append_left _ hs)

/-- What reading a type does. `k` stands for what is said about the tokens which follow. -/
theorem type_read {t : Tk} {ts : List Tk} (ht : Tail3 (t :: ts)) (hk : t.kind = .ident) (f : Front) :
    (∃ f', FrontAdds f [(t.lexeme, false)] f' ∧ Tail3 ts ∧ (toksOf strtod ts).head? ≠ some (.sym .question) ∧
      parseType frontOps ⟨t :: ts, f⟩ = .ok (typeMeans (t.lexeme, false)) ⟨ts, f'⟩) ∨
    (∃ q us f', ts = q :: us ∧ q.kind = .question ∧ t.lexeme ≠ bytes "void" ∧ FrontAdds f [(t.lexeme, true)] f' ∧ Tail3 us ∧
      parseType frontOps ⟨t :: ts, f⟩ = .ok (typeMeans (t.lexeme, true)) ⟨us, f'⟩) ∨
    (∃ q us r, ts = q :: us ∧ q.kind = .question ∧ t.lexeme = bytes "void" ∧ parseType frontOps ⟨t :: ts, f⟩ = .err r) := by
  have ht1 := ht.tail (nostick hk (by decide))
  obtain ⟨u, us, rfl⟩ := ht1.cons
  obtain ⟨f', hg, ha⟩ := getTag_adds f t.lexeme
  have hstep : parseType frontOps ⟨t :: u :: us, f⟩ =
      (if u.kind = .question then (lift (frontOps.nullable (typeNamed t.lexeme)) >>= fun s => next >>= fun _ => pure s : Act (PS Front) Tag)
        else pure (typeNamed t.lexeme)) ⟨u :: us, f'⟩ := by
    rw [parseType, expect_bind _ _ _ hk, cur_bind, Act.bind_apply, lift]
    dsimp only [frontOps]
    rw [hg]
    rfl
  by_cases hq : u.kind = .question
  · rw [if_pos hq] at hstep
    have ht2 := ht1.tail (nostick hq (by decide))
    obtain ⟨v, vs, rfl⟩ := ht2.cons
    by_cases hv : t.lexeme = bytes "void"
    · refine .inr (.inr ⟨u, v :: vs, ⟨[], f'⟩, rfl, hq, hv, ?_⟩)
      rw [hstep, Act.bind_apply, lift]
      dsimp only [frontOps]
      rw [makeNullable, if_pos (typeNamed_void.mpr hv)]
      rfl
    · obtain ⟨f'', hn, ha'⟩ := nullable_adds ha hv
      refine .inr (.inl ⟨u, v :: vs, f'', rfl, hq, hv, ha', ht2, ?_⟩)
      rw [hstep, Act.bind_apply, lift]
      dsimp only [frontOps]
      rw [hn]
      rfl
  · rw [if_neg hq] at hstep
    exact .inl ⟨f', ha, ht1, fun h => hq (toksOf_head h), hstep⟩

/-! ## Arguments -/

theorem _root_.Tiny.Spec.VoidOpt.cons {us : List Token} (h : VoidOpt us) (k : Token) : VoidOpt (k :: us) :=
  h.trans (List.suffix_cons _ _).isInfix

theorem voidOpt_here (us : List Token) : VoidOpt (.ident (bytes "void") :: .sym .question :: us) := ⟨[], us, rfl⟩

theorem _root_.Tiny.Spec.SigItems.unique {as as' : List SType} {va va' : Bool} {us : List Token} (h : SigItems as va us) :
    SigItems as' va' us → as = as' ∧ va = va' := by
  induction h generalizing as' va' with
  | close => intro h; cases h; exact ⟨rfl, rfl⟩
  | comma _ ih => intro h; cases h with | comma h => exact ih h
  | dots _ ih => intro h; cases h with | dots h => exact ⟨(ih h).1, rfl⟩
  | type h1 _ ih =>
    intro h
    cases h with
    | type _ h => obtain ⟨rfl, rfl⟩ := ih h; exact ⟨rfl, rfl⟩
    | opt h => simp at h1
  | opt _ ih =>
    intro h
    cases h with
    | type h _ => simp at h
    | opt h => obtain ⟨rfl, rfl⟩ := ih h; exact ⟨rfl, rfl⟩

theorem _root_.Tiny.Spec.SigRet.unique {r r' : Option SType} {us : List Token} (h : SigRet r us) (h' : SigRet r' us) : r = r' := by
  cases h <;> cases h' <;> simp_all

theorem _root_.Tiny.Spec.SigIs.unique {S S' : Signature} {us : List Token} (h : SigIs S us) (h' : SigIs S' us) : S = S' := by
  cases h with
  | bare h =>
    cases h' with
    | bare => rfl
    | full => simp at h
  | full h1 h2 =>
    cases h' with
    | bare h => simp at h
    | full h1' h2' =>
      obtain ⟨rfl, rfl⟩ := h1.unique h1'
      rw [h2.unique h2']

theorem afterArgs_suffix : ∀ us : List Token, AfterArgs us <:+ us
  | [] => List.suffix_refl _
  | k :: us => by
    unfold AfterArgs
    split
    · exact List.nil_suffix
    · rename_i h
      cases h
      exact List.suffix_cons _ _
    · rename_i h
      cases h
      exact (afterArgs_suffix us).trans (List.suffix_cons _ _)

/-- The loop over the arguments. -/
theorem args_read : ∀ (n : Nat) (ts : List Tk) (f : Front), Tail3 ts → ts.length < n →
    match parseSigArgs n ⟨ts, f⟩ with
    | .ok r q => ∃ as va rp rest, SigItems as va (toksOf strtod ts) ∧ r = (as.map typeMeans, va) ∧
        FrontAdds f as q.st ∧ q.toks = rp :: rest ∧ Tail3 rest ∧ toksOf strtod rest = AfterArgs (toksOf strtod ts)
    | .err _ => VoidOpt (toksOf strtod ts)
    | .abort => ∀ as va, ¬ SigItems as va (toksOf strtod ts)
    | .ub => False
    | .timeout => False
  | 0, _, _, _, h => by omega
  | n + 1, ts, f, ht, hn => by
    obtain ⟨t, ts, rfl⟩ := ht.cons
    simp only [List.length_cons] at hn
    rw [parseSigArgs, cur_bind]
    by_cases h1 : t.kind = .closeParen
    · rw [if_pos h1]
      refine ⟨[], false, t, ts, ?_, rfl, .nil f, rfl, ht.tail (nostick h1 (by decide)), ?_⟩
      · rw [toksOf_sym (.inl rfl) h1]
        exact .close
      · rw [toksOf_sym (.inl rfl) h1, AfterArgs]
    rw [if_neg h1]
    by_cases h2 : t.kind = .comma
    · rw [if_pos h2]
      have ht' := ht.tail (nostick h2 (by decide))
      have ih := args_read n ts f ht' (by omega)
      have ht'' : (next >>= fun _ => parseSigArgs n : Act (PS Front) _) ⟨t :: ts, f⟩ = parseSigArgs n ⟨ts, f⟩ := by
        obtain ⟨u, us, rfl⟩ := ht'.cons
        rfl
      rw [ht'', toksOf_sym (.inr (.inl rfl)) h2]
      cases hp : parseSigArgs n ⟨ts, f⟩ with
      | ok r q =>
        rw [hp] at ih
        obtain ⟨as, va, rp, rest, g1, g2, g3, g4, g5, g6⟩ := ih
        exact ⟨as, va, rp, rest, .comma g1, g2, g3, g4, g5, by rw [g6]; rfl⟩
      | err q => rw [hp] at ih; exact VoidOpt.cons ih _
      | abort =>
        rw [hp] at ih
        intro as va h
        cases h with
        | comma h => exact ih _ _ h
      | ub => rw [hp] at ih; exact ih
      | timeout => rw [hp] at ih; exact ih
    rw [if_neg h2]
    by_cases h3 : t.kind = .ellipsis
    · rw [if_pos h3]
      have ht' := ht.tail (nostick h3 (by decide))
      have ih := args_read n ts f ht' (by omega)
      have ht'' : (next >>= fun _ => parseSigArgs n >>= fun r => pure (r.1, true) : Act (PS Front) _) ⟨t :: ts, f⟩ =
          (parseSigArgs n >>= fun r => pure (r.1, true) : Act (PS Front) _) ⟨ts, f⟩ := by
        obtain ⟨u, us, rfl⟩ := ht'.cons
        rfl
      rw [ht'', toksOf_sym (.inr (.inr (.inl rfl))) h3, Act.bind_apply]
      cases hp : parseSigArgs n ⟨ts, f⟩ with
      | ok r q =>
        rw [hp] at ih
        obtain ⟨as, va, rp, rest, g1, g2, g3, g4, g5, g6⟩ := ih
        subst g2
        exact ⟨as, true, rp, rest, .dots g1, rfl, g3, g4, g5, by rw [g6]; rfl⟩
      | err q => rw [hp] at ih; exact VoidOpt.cons ih _
      | abort =>
        rw [hp] at ih
        intro as va h
        cases h with
        | dots h => exact ih _ _ h
      | ub => rw [hp] at ih; exact ih
      | timeout => rw [hp] at ih; exact ih
    rw [if_neg h3]
    by_cases h4 : t.kind = .ident
    · rw [if_pos h4, toksOf_ident h4, Act.bind_apply]
      rcases type_read (strtod := strtod) ht h4 f with ⟨f', ha, ht', hq, he⟩ | ⟨q, us, f', rfl, hq, hv, ha, ht', he⟩ | ⟨q, us, r, rfl, hq, hv, he⟩
      · rw [he]
        dsimp only
        rw [Act.bind_apply]
        have ih := args_read n ts f' ht' (by omega)
        cases hp : parseSigArgs n ⟨ts, f'⟩ with
        | ok r q =>
          rw [hp] at ih
          obtain ⟨as, va, rp, rest, g1, g2, g3, g4, g5, g6⟩ := ih
          subst g2
          refine ⟨(t.lexeme, false) :: as, va, rp, rest, .type hq g1, ?_, ha.trans g3, g4, g5, by rw [g6]; rfl⟩
          rfl
        | err q => rw [hp] at ih; exact VoidOpt.cons ih _
        | abort =>
          rw [hp] at ih
          intro as va h
          generalize hus : toksOf strtod ts = us at h
          cases h with
          | type _ h => exact ih _ _ (hus ▸ h)
          | opt h => rw [hus] at hq; simp at hq
        | ub => rw [hp] at ih; exact ih
        | timeout => rw [hp] at ih; exact ih
      · rw [he]
        dsimp only
        rw [Act.bind_apply, toksOf_sym (.inr (.inr (.inr (.inl rfl)))) hq]
        simp only [List.length_cons] at hn
        have ih := args_read n us f' ht' (by omega)
        cases hp : parseSigArgs n ⟨us, f'⟩ with
        | ok r q =>
          rw [hp] at ih
          obtain ⟨as, va, rp, rest, g1, g2, g3, g4, g5, g6⟩ := ih
          subst g2
          refine ⟨(t.lexeme, true) :: as, va, rp, rest, .opt g1, ?_, ha.trans g3, g4, g5, by rw [g6]; rfl⟩
          rfl
        | err q => rw [hp] at ih; exact VoidOpt.cons (VoidOpt.cons ih _) _
        | abort =>
          rw [hp] at ih
          intro as va h
          cases h with
          | type h _ => simp at h
          | opt h => exact ih _ _ h
        | ub => rw [hp] at ih; exact ih
        | timeout => rw [hp] at ih; exact ih
      · rw [he, toksOf_sym (.inr (.inr (.inr (.inl rfl)))) hq, hv]
        exact voidOpt_here _
    · rw [if_neg h4]
      intro as va h
      generalize hus : toksOf strtod (t :: ts) = us at h
      cases h with
      | close => exact h1 (tk_sym (toksOf_cons hus).1)
      | comma => exact h2 (tk_sym (toksOf_cons hus).1)
      | dots => exact h3 (tk_sym (toksOf_cons hus).1)
      | type => exact h4 (tk_ident (toksOf_cons hus).1).1
      | opt => exact h4 (tk_ident (toksOf_cons hus).1).1

/-- The type of the result. -/
theorem ret_read {ts : List Tk} (ht : Tail3 ts) (f : Front) :
    match parseSigRet ⟨ts, f⟩ with
    | .ok x q => ∃ r, SigRet r (toksOf strtod ts) ∧ FrontAdds f r.toList q.st ∧
        x = retMeans r
    | .err _ => VoidOpt (toksOf strtod ts)
    | .abort => ∀ r, ¬ SigRet r (toksOf strtod ts)
    | .ub => False
    | .timeout => False := by
  obtain ⟨t, ts, rfl⟩ := ht.cons
  rw [parseSigRet, cur_bind]
  by_cases h1 : t.kind = .colon
  · have hc := toksOf_sym (strtod := strtod) (ts := ts) (k := .colon) (by simp [punct]) h1
    rw [if_pos h1, hc]
    have ht1 := ht.tail (nostick h1 (by decide))
    obtain ⟨u, us, rfl⟩ := ht1.cons
    rw [next_bind, cur_bind]
    by_cases h2 : u.kind = .ident
    · rw [if_pos h2, toksOf_ident h2]
      rcases type_read (strtod := strtod) ht1 h2 f with ⟨f', ha, ht', hq, he⟩ | ⟨q, vs, f', rfl, hq, hv, ha, ht', he⟩ | ⟨q, vs, r, rfl, hq, hv, he⟩
      · rw [he]
        exact ⟨some (u.lexeme, false), .type hq, ha, rfl⟩
      · rw [he, toksOf_sym (.inr (.inr (.inr (.inl rfl)))) hq]
        exact ⟨some (u.lexeme, true), .opt, ha, rfl⟩
      · rw [he, toksOf_sym (.inr (.inr (.inr (.inl rfl)))) hq, hv]
        exact VoidOpt.cons (voidOpt_here _) _
    · rw [if_neg h2]
      intro r h
      generalize hus : toksOf strtod (u :: us) = vs at h
      cases h with
      | none h => simp at h
      | type => exact h2 (tk_ident (toksOf_cons hus).1).1
      | opt => exact h2 (tk_ident (toksOf_cons hus).1).1
  · rw [if_neg h1]
    exact ⟨none, .none fun h => h1 (toksOf_head h), .nil f, rfl⟩

theorem free_any {f : Front} {n : Name} : f.syms.any (·.isForeign n) = false ↔ FreeName f n := by
  simp only [List.any_eq_false, FreeName]
  constructor
  · intro h i ts va r hm
    have := h _ hm
    simp [Sym.isForeign] at this
  · intro h x hx
    cases x with
    | «foreign» m i ts va r =>
      intro hm
      simp only [Sym.isForeign, beq_iff_eq] at hm
      subst hm
      exact h _ _ _ _ hx
    | _ => simp [Sym.isForeign]

theorem _root_.Tiny.Spec.FreeName.adds {f f' : Front} {tys : List SType} (h : FrontAdds f tys f') {n : Name} : FreeName f' n ↔ FreeName f n := by
  obtain ⟨-, ms, h, rfl⟩ := h
  constructor
  · intro g i ts va r hm
    exact g i ts va r (List.mem_append_left _ hm)
  · intro g i ts va r hm
    rcases List.mem_append.mp hm with hm | hm
    · exact g i ts va r hm
    · rcases h.only _ hm with ⟨_, _, _, _, h⟩ | ⟨_, _, _, h⟩ <;> cases h

/-- Adding the symbol of the function itself. -/
theorem bind_last {f f' : Front} {tys : List SType} (ha : FrontAdds f tys f') (n : Name) (as : List Tag) (va : Bool) (r : Tag)
    (ts : List Tk) :
    (FreeName f n ∧ ∃ q, lift (bindFunction n as va r) ⟨ts, f'⟩ = .ok () q ∧ Calls f q.st ∧
      ∃ ms, Adds f.syms tys ms ∧ q.st = { f with
        syms := f.syms ++ ms ++ [.foreign n f.numForeign as va r], numForeign := f.numForeign + 1 }) ∨
    (¬ FreeName f n ∧ lift (bindFunction n as va r) ⟨ts, f'⟩ = .abort) := by
  by_cases h : FreeName f n
  · have h' := free_any.mpr ((FreeName.adds ha).mpr h)
    obtain ⟨c, ms, ha, rfl⟩ := ha
    have he : bindFunction n as va r { f with syms := f.syms ++ ms } = .ok () { f with
        syms := f.syms ++ ms ++ [.foreign n f.numForeign as va r], numForeign := f.numForeign + 1 } := by
      unfold bindFunction
      rw [Act.bind_apply]
      dsimp only [Act.get]
      rw [if_neg (by rw [h']; simp)]
      rfl
    refine .inl ⟨h, ⟨ts, _⟩, ?_, c.tail (.bind he), ms, ha, rfl⟩
    rw [lift, he]
  · have h' : f'.syms.any (·.isForeign n) = true := by
      rw [← Bool.not_eq_false]
      exact fun g => h ((FreeName.adds ha).mp (free_any.mp g))
    refine .inr ⟨h, ?_⟩
    rw [lift]
    dsimp only
    unfold bindFunction
    rw [Act.bind_apply]
    dsimp only [Act.get]
    rw [if_pos h']
    rfl

/-- `Tiny_BindFunction` on tokens. -/
theorem sig_read {n : Nat} {ts : List Tk} (f : Front) (ht : Tail3 ts) (hn : ts.length < n) :
    match bindSig n ⟨ts, f⟩ with
    | .ok _ q => ∃ S, SigIs S (toksOf strtod ts) ∧ FreeName f S.name ∧ Bound f S q.st ∧ Calls f q.st
    | .err _ => VoidOpt (toksOf strtod ts)
    | .abort => ∀ S, SigIs S (toksOf strtod ts) → ¬ FreeName f S.name
    | .ub => False
    | .timeout => False := by
  obtain ⟨t, ts, rfl⟩ := ht.cons
  rw [bindSig, cur_bind]
  by_cases h1 : t.kind = .ident
  · rw [if_pos h1, toksOf_ident h1]
    have ht1 := ht.tail (nostick h1 (by decide))
    obtain ⟨u, us, rfl⟩ := ht1.cons
    rw [next_bind, cur_bind]
    by_cases h2 : u.kind = .openParen
    · have hc := toksOf_sym (strtod := strtod) (ts := us) (k := .openParen) (by simp [punct]) h2
      rw [if_pos h2, hc]
      have ht2 := ht1.tail (nostick h2 (by decide))
      obtain ⟨v, vs, rfl⟩ := ht2.cons
      rw [next_bind, Act.bind_apply]
      have ih := args_read (strtod := strtod) n (v :: vs) f ht2 (by simp at hn ⊢; omega)
      cases hp : parseSigArgs n ⟨v :: vs, f⟩ with
      | ok r q =>
        rw [hp] at ih
        obtain ⟨as, va, rp, rest, g1, rfl, g3, g4, g5, g6⟩ := ih
        obtain ⟨q, f1⟩ := q
        dsimp only at g4 g3
        subst g4
        dsimp only
        obtain ⟨w, ws, rfl⟩ := g5.cons
        rw [next_bind, Act.bind_apply]
        have ih2 := ret_read (strtod := strtod) g5 f1
        cases hr : parseSigRet ⟨w :: ws, f1⟩ with
        | ok x q =>
          rw [hr] at ih2
          obtain ⟨r, e1, e2, e3⟩ := ih2
          obtain ⟨q, f2⟩ := q
          dsimp only at e2 ⊢
          have hs : SigIs ⟨t.lexeme, as, va, r⟩ (.ident t.lexeme :: .sym .openParen :: toksOf strtod (v :: vs)) :=
            .full g1 (g6 ▸ e1)
          rcases bind_last (g3.trans e2) t.lexeme (as.map typeMeans) va x q with ⟨hf, q', e, c, ms, k1, k2⟩ | ⟨hf, e⟩
          · rw [e]
            refine ⟨_, hs, hf, ⟨ms, k1, ?_⟩, c⟩
            rw [k2, e3]
          · rw [e]
            intro S hS
            rw [hS.unique hs]
            exact hf
        | err q =>
          rw [hr, g6] at ih2
          exact VoidOpt.cons (VoidOpt.cons (ih2.trans (afterArgs_suffix _).isInfix) _) _
        | abort =>
          rw [hr] at ih2
          intro S hS
          cases hS with
          | bare h => simp at h
          | full _ h => rw [← g6] at h; exact absurd h (ih2 _)
        | ub => rw [hr] at ih2; exact ih2
        | timeout => rw [hr] at ih2; exact ih2
      | err q => rw [hp] at ih; exact VoidOpt.cons (VoidOpt.cons ih _) _
      | abort =>
        rw [hp] at ih
        intro S hS
        cases hS with
        | bare h => simp at h
        | full h _ => exact absurd h (ih _ _)
      | ub => rw [hp] at ih; exact ih
      | timeout => rw [hp] at ih; exact ih
    · rw [if_neg h2]
      have hs : SigIs ⟨t.lexeme, [], true, none⟩ (.ident t.lexeme :: toksOf strtod (u :: us)) :=
        .bare fun h => h2 (toksOf_head h)
      rcases bind_last (.nil f) t.lexeme [] true .any (u :: us) with ⟨hf, q', e, c, ms, k1, k2⟩ | ⟨hf, e⟩
      · rw [e]
        exact ⟨_, hs, hf, ⟨ms, k1, k2⟩, c⟩
      · rw [e]
        intro S hS
        rw [hS.unique hs]
        exact hf
  · rw [if_neg h1]
    intro S hS
    generalize hus : toksOf strtod (t :: ts) = us at hS
    cases hS with
    | bare => exact absurd (tk_ident (toksOf_cons hus).1).1 h1
    | full => exact absurd (tk_ident (toksOf_cons hus).1).1 h1

end Tiny
