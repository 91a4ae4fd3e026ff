import Verif.Props.HostMacro

/-!
# C50: the functions of the standard library
-/

namespace Tiny
open Spec

/-- The texts given to `Tiny_BindFunction`. -/
def funcTexts : List StdCall → List (List UInt8)
  | [] => []
  | .func x :: L => bytes x :: funcTexts L
  | _ :: L => funcTexts L

/-- The names given to `Tiny_RegisterType`. -/
def typeNames : List StdCall → List Name
  | [] => []
  | .type x :: L => bytes x :: typeNames L
  | _ :: L => typeNames L

/-- The names given to `Tiny_BindMacro`. -/
def macroNames : List StdCall → List Name
  | [] => []
  | .macro x :: L => bytes x :: macroNames L
  | _ :: L => macroNames L

/-- The names given to `Tiny_BindConstInt`. -/
def constNames : List StdCall → List Name
  | [] => []
  | .constInt x _ :: L => bytes x :: constNames L
  | _ :: L => constNames L

/-- What the calls leave alone. -/
structure StdStep (f f' : Front) (fn mac con : Option Name) (nf : Nat) : Prop where
  func : ∀ n x, f.syms.find? (IsFuncNamed n) = some x → f'.syms.find? (IsFuncNamed n) = some x
  noFunc : ∀ n, fn ≠ some n → NoFunction f n → NoFunction f' n
  free : ∀ n, fn ≠ some n → FreeName f n → FreeName f' n
  type : ∀ n, KnownType f n → KnownType f' n
  mac : ∀ n, mac ≠ some n → Sym.module n ∉ f.syms → Sym.module n ∉ f'.syms
  con : ∀ n, con ≠ some n → (∀ x ∈ f.syms, x.isVar n = false) → ∀ x ∈ f'.syms, x.isVar n = false
  num : f'.numForeign = f.numForeign + nf
  cur : f'.currFunc = f.currFunc

theorem known_prefix {f f' : Front} (h : f.syms <+: f'.syms) {n : Name} (hn : KnownType f n) : KnownType f' n := by
  rcases hn with h' | h' | ⟨fs, h'⟩
  · exact .inl h'
  · exact .inr (.inl (find_prefix h h'))
  · exact .inr (.inr ⟨fs, find_prefix h h'⟩)

theorem step_push {f : Front} {x : Sym} {mac con : Option Name} (hm : ∀ n, x = .module n → mac = some n)
    (hf : ∀ n, IsFuncNamed n x = false) (hv : ∀ n, x.isVar n = true → con = some n) :
    StdStep f { f with syms := f.syms ++ [x] } none mac con 0 where
  func n y h := find_prefix (List.prefix_append _ _) h
  noFunc n _ h y hy := by
    simp only [List.mem_append, List.mem_singleton] at hy
    rcases hy with hy | rfl
    · exact h y hy
    · exact hf n
  free n _ h i ts va r hy := by
    simp only [List.mem_append, List.mem_singleton] at hy
    rcases hy with hy | rfl
    · exact h _ _ _ _ hy
    · have := hf n
      simp [IsFuncNamed] at this
  type n h := known_prefix (List.prefix_append _ _) h
  mac n hn h hy := by
    simp only [List.mem_append, List.mem_singleton] at hy
    rcases hy with hy | hy
    · exact h hy
    · exact hn (hm n hy.symm)
  con n hn h y hy := by
    simp only [List.mem_append, List.mem_singleton] at hy
    rcases hy with hy | rfl
    · exact h y hy
    · cases he : y.isVar n with
      | false => rfl
      | true => exact (hn (hv n he)).elim
  num := rfl
  cur := rfl

theorem step_refl (f : Front) : StdStep f f none none none 0 :=
  ⟨fun _ _ h => h, fun _ _ h => h, fun _ _ h => h, fun _ h => h, fun _ _ h => h, fun _ _ h => h, rfl, rfl⟩

theorem step_register {f : Front} (n : Name) : ∃ f', registerType n f = .ok () f' ∧ StdStep f f' none none none 0 ∧ KnownType f' n := by
  by_cases hk : KnownType f n
  · refine ⟨f, ?_, step_refl f, hk⟩
    have h := findType_means hk
    unfold findTypeSymbol at h
    unfold registerType
    cases hp : primTag n with
    | some t => rfl
    | none =>
      rw [hp] at h
      simp only [Option.isSome_none, Bool.false_eq_true, if_false, Act.bind_apply, Act.get] at h ⊢
      cases hf : f.syms.find? (fun x => (x.asType n).isSome) with
      | none => rw [hf] at h; cases h
      | some x =>
        rw [hf] at h
        cases x with
        | struct m d fs => cases d <;> first | cases h; done | rfl
        | _ => rfl
  · obtain ⟨f', h1, h2⟩ := registerType_new hk
    refine ⟨f', h1, ?_, .inr (.inl (registers_registered h2))⟩
    rcases h2 with ⟨-, rfl⟩ | ⟨A, B, fs, h3, h4, rfl⟩
    · exact step_push (by simp) (by simp [IsFuncNamed]) (by simp [Sym.isVar])
    · have hfind : ∀ p : Sym → Bool, p (.struct n false fs) = false → p (.ftype n) = false →
          (A ++ .ftype n :: B).find? p = f.syms.find? p := by
        intro p h5 h6
        rw [h3]
        simp [List.find?_append, List.find?_cons, h5, h6]
      refine ⟨fun m x h => ?_, fun m _ h => ?_, fun m _ h => ?_, fun m h => ?_, fun m _ h => ?_, fun m _ h => ?_, rfl, rfl⟩
      · rw [← h]; exact hfind _ rfl rfl
      · rw [NoFunction, h3] at h
        intro x hx
        simp only [List.mem_append, List.mem_cons] at hx h
        rcases hx with hx | rfl | hx
        · exact h x (.inl hx)
        · rfl
        · exact h x (.inr (.inr hx))
      · rw [FreeName, h3] at h
        intro i ts va r hx
        refine h i ts va r ?_
        simp only [List.mem_append, List.mem_cons] at hx ⊢
        rcases hx with hx | hx | hx
        · exact .inl hx
        · cases hx
        · exact .inr (.inr hx)
      · by_cases hm : m = n
        · subst hm; exact (hk h).elim
        · have : f.syms.find? (IsTypeNamed m) = (A ++ .ftype n :: B).find? (IsTypeNamed m) :=
            (hfind _ (by simpa [IsTypeNamed] using fun h => hm h.symm) (by simpa [IsTypeNamed] using fun h => hm h.symm)).symm
          unfold KnownType Registered at h ⊢
          rw [this] at h
          exact h
      · rw [h3] at h
        intro hx
        apply h
        simp only [List.mem_append, List.mem_cons] at hx ⊢
        rcases hx with hx | hx | hx
        · exact .inl hx
        · cases hx
        · exact .inr (.inr hx)
      · rw [h3] at h
        intro x hx
        simp only [List.mem_append, List.mem_cons] at hx h
        rcases hx with hx | rfl | hx
        · exact h x (.inl hx)
        · rfl
        · exact h x (.inr (.inr hx))

theorem step_bound {f f' : Front} {S : Signature} (h : Bound f S f') : StdStep f f' (some S.name) none none 1 where
  func n x hx := find_prefix (bound_prefix h) hx
  noFunc n hn := bound_none h fun e => hn (by rw [e])
  free n hn := bound_free h fun e => hn (by rw [e])
  type n hn := known_prefix (bound_prefix h) hn
  mac n _ hm := by
    obtain ⟨ms, ha, rfl⟩ := h
    intro hx
    simp only [List.append_assoc, List.mem_append, List.mem_singleton] at hx
    rcases hx with hx | hx | hx
    · exact hm hx
    · rcases ha.only _ hx with ⟨_, _, _, _, h⟩ | ⟨_, _, _, h⟩ <;> cases h
    · cases hx
  con n _ hm := by
    obtain ⟨ms, ha, rfl⟩ := h
    intro x hx
    simp only [List.append_assoc, List.mem_append, List.mem_singleton] at hx
    rcases hx with hx | hx | rfl
    · exact hm x hx
    · rcases ha.only _ hx with ⟨_, _, _, _, rfl⟩ | ⟨_, _, _, rfl⟩ <;> rfl
    · rfl
  num := by obtain ⟨ms, ha, rfl⟩ := h; rfl
  cur := by obtain ⟨ms, ha, rfl⟩ := h; rfl

/-- The calls succeed if the names are free; then every name means its function. -/
theorem runStd_ok (strtod : List UInt8 → BitVec 64) : ∀ (L : List StdCall) {Ss : List Signature} {s : TState},
    List.Forall₂ SaysSig (funcTexts L) Ss → (Ss.map Signature.name).Nodup → (macroNames L).Nodup → (constNames L).Nodup →
    (∀ S ∈ Ss, NoFunction s.front S.name) → (∀ n ∈ macroNames L, Sym.module n ∉ s.front.syms) →
    (∀ n ∈ constNames L, ∀ x ∈ s.front.syms, x.isVar n = false) → s.front.currFunc = .none →
    ∃ f', runStd strtod L s = .ok () { s with front := f' } ∧
      (∀ n x, s.front.syms.find? (IsFuncNamed n) = some x → f'.syms.find? (IsFuncNamed n) = some x) ∧
      (∀ n, KnownType s.front n → KnownType f' n) ∧
      (∀ (k : Nat) S, Ss[k]? = some S → Declared f' S (s.front.numForeign + k)) ∧ ∀ n ∈ typeNames L, KnownType f' n
  | [], _, s, h, _, _, _, _, _, _, _ => by
    cases h
    exact ⟨s.front, rfl, fun _ _ h => h, fun _ h => h, by simp, by simp [typeNames]⟩
  | c :: L, Ss, s, h, hn, hm, hc, hf, hfm, hfc, hcur => by
    cases c with
    | type n =>
      obtain ⟨f1, h1, h2, h3⟩ := step_register (f := s.front) (bytes n)
      obtain ⟨f', k1, k2, k5, k3, k4⟩ := runStd_ok strtod L (Ss := Ss) (s := { s with front := f1 }) h hn hm hc (fun S hS => h2.noFunc _ (by simp) (hf S hS))
        (fun m h => h2.mac m (by simp) (hfm m h)) (fun m h => h2.con m (by simp) (hfc m h)) (h2.cur.trans hcur)
      refine ⟨f', ?_, fun n x h => k2 n x (h2.func n x h), fun n h => k5 n (h2.type n h), fun k S h => ?_, ?_⟩
      · rw [runStd, Act.bind_apply]
        simp only [StdCall.run, onFront, ← bytes_nameOf, h1]
        exact k1
      · have := k3 k S h
        rwa [show ({ s with front := f1 } : TState).front.numForeign = s.front.numForeign from h2.num] at this
      · intro m h
        rcases List.mem_cons.mp h with rfl | h
        · exact k5 _ h3
        · exact k4 m h
    | func x =>
      cases h with
      | @cons _ S _ Ss h hs =>
        simp only [List.map_cons, List.nodup_cons] at hn
        obtain ⟨ts, e, h1, h2, h3, h4⟩ := h
        have hfree : FreeName s.front S.name := fun i ts va r hx => by
          have := hf S (by simp) _ hx
          simp [IsFuncNamed] at this
        obtain ⟨f1, h5, h6⟩ := c49_bind strtod h4 h1 h2 h3 s hfree
        have st := step_bound h6
        obtain ⟨f', k1, k2, k5, k3, k4⟩ := runStd_ok strtod L (Ss := Ss) (s := { s with front := f1 }) hs hn.2 hm hc
          (fun T hT => st.noFunc _ (fun he => hn.1 (by rw [Option.some.inj he]; exact List.mem_map_of_mem hT)) (hf T (List.mem_cons_of_mem _ hT)))
          (fun m h => st.mac m (by simp) (hfm m h)) (fun m h => st.con m (by simp) (hfc m h)) (st.cur.trans hcur)
        refine ⟨f', ?_, fun n x h => k2 n x (st.func n x h), fun n h => k5 n (st.type n h), fun k T h => ?_, k4⟩
        · rw [runStd, Act.bind_apply]
          simp only [StdCall.run, ← bytes_nameOf, h5]
          exact k1
        · cases k with
          | zero =>
            cases h
            exact k2 _ _ (bound_declared h6 (hf S (by simp)))
          | succ k =>
            have := k3 k T h
            rw [show ({ s with front := f1 } : TState).front.numForeign = s.front.numForeign + 1 from st.num] at this
            rwa [show s.front.numForeign + (k + 1) = s.front.numForeign + 1 + k by omega]
    | «macro» n =>
      simp only [macroNames, List.nodup_cons] at hm
      have hb : bindMacro (nameOf n) s.front = .ok () { s.front with syms := s.front.syms ++ [.module (nameOf n)] } := by
        unfold bindMacro
        simp only [Act.bind_apply, Act.get]
        rw [if_neg]
        · rfl
        · have := hfm (bytes n) (by simp [macroNames])
          rw [bytes_nameOf] at this
          simpa using this
      have st := step_push (f := s.front) (x := .module (nameOf n)) (mac := some (nameOf n)) (con := none) (by
        rintro m h; cases h; rfl) (by intro m; rfl) (by intro m h; cases h)
      obtain ⟨f', k1, k2, k5, k3, k4⟩ := runStd_ok strtod L (Ss := Ss) (s := { s with front := _ }) h hn hm.2 hc (fun S hS => st.noFunc _ (by simp) (hf S hS))
        (fun m h => st.mac m (by
          intro e
          cases e
          rw [bytes_nameOf] at hm
          exact hm.1 h) (hfm m (List.mem_cons_of_mem _ h))) (fun m h => st.con m (by simp) (hfc m h)) (st.cur.trans hcur)
      refine ⟨f', ?_, fun n x h => k2 n x (st.func n x h), fun n h => k5 n (st.type n h), fun k S h => ?_, k4⟩
      · rw [runStd, Act.bind_apply]
        simp only [StdCall.run, onFront, hb]
        exact k1
      · exact k3 k S h
    | constInt n v =>
      simp only [constNames, List.nodup_cons] at hc
      have hb : declareConst (nameOf n) .int (.int v) s.front =
          .ok () { s.front with syms := s.front.syms ++ [.const (nameOf n) .int (.int v)] } := by
        have hv := hfc (bytes n) (by simp [constNames])
        rw [bytes_nameOf] at hv
        have : s.front.syms.findIdx? (·.isVar (nameOf n)) = none := by
          rw [List.findIdx?_eq_none_iff]
          exact hv
        have href : referenceVariable (nameOf n) s.front = .ok none s.front := by
          have hcf : currentFunc s.front = .ok none s.front := by unfold currentFunc; rw [hcur]
          simp only [referenceVariable, act_bind, hcf, lookupFunc, Act.get, act_pure, this]
          rfl
        simp only [declareConst, act_bind, href]
        rfl
      have st := step_push (f := s.front) (x := .const (nameOf n) .int (.int v)) (mac := none) (con := some (nameOf n)) (by
        rintro m h; cases h) (by intro m; rfl) (by
        intro m h
        simp only [Sym.isVar, beq_iff_eq] at h
        rw [h])
      obtain ⟨f', k1, k2, k5, k3, k4⟩ := runStd_ok strtod L (Ss := Ss) (s := { s with front := _ }) h hn hm hc.2 (fun S hS => st.noFunc _ (by simp) (hf S hS))
        (fun m h => st.mac m (by simp) (hfm m h)) (fun m h => st.con m (by
          intro e
          cases e
          rw [bytes_nameOf] at hc
          exact hc.1 h) (hfc m (List.mem_cons_of_mem _ h))) (st.cur.trans hcur)
      refine ⟨f', ?_, fun n x h => k2 n x (st.func n x h), fun n h => k5 n (st.type n h), fun k S h => ?_, k4⟩
      · rw [runStd, Act.bind_apply]
        simp only [StdCall.run, onFront, hb]
        exact k1
      · exact k3 k S h

/-! ## The texts of std.c -/

instance : DecidablePred IsWord
  | [] => inferInstanceAs (Decidable False)
  | c :: cs => inferInstanceAs (Decidable (Letter c ∧ ∀ d ∈ cs, Letter d ∨ Digit d ∨ d = 95))

/-- Is it an identifier? -/
def identB (s : List UInt8) : Bool :=
  decide (IsWord s) && keywords.all (fun k => s != bytes k.1) && s != bytes "true" && s != bytes "false"

theorem identB_spelled {s : List UInt8} (h : identB s = true) : Spelled s (.ident s) := by
  simp only [identB, Bool.and_eq_true, decide_eq_true_eq, List.all_eq_true, bne_iff_ne] at h
  exact identOf h.1.1.1 h.1.1.2 h.1.2 h.2

/-- Does the text say so, in the usual way or with the name alone? -/
def saysB (x : List UInt8) (S : Signature) : Bool :=
  (x == S.name && identB S.name && S.args.isEmpty && S.varargs && S.ret.isNone) ||
  (x == S.text && identB S.name && S.types.all fun ty => identB ty.1 && !ty.2)

theorem saysB_says {x : List UInt8} {S : Signature} (h : saysB x S = true) : SaysSig x S := by
  simp only [saysB, Bool.or_eq_true, Bool.and_eq_true, beq_iff_eq, List.all_eq_true] at h
  rcases h with ⟨⟨⟨⟨rfl, h2⟩, h3⟩, h4⟩, h5⟩ | ⟨⟨rfl, h2⟩, h3⟩
  · obtain ⟨n, as, va, r⟩ := S
    simp only [List.isEmpty_iff, Option.isNone_iff_eq_none] at h3 h4 h5
    subst h3 h4 h5
    exact says_bare (identB_spelled h2)
  · refine says_text ⟨identB_spelled h2, fun ty hty => identB_spelled (h3 ty hty).1⟩ fun h => ?_
    have := (h3 _ h).2
    simp at this

/-- Do they, all of them? -/
def saysAllB : List (List UInt8) → List Signature → Bool
  | [], [] => true
  | x :: xs, S :: Ss => saysB x S && saysAllB xs Ss
  | _, _ => false

theorem saysAllB_says : ∀ {xs : List (List UInt8)} {Ss : List Signature}, saysAllB xs Ss = true → List.Forall₂ SaysSig xs Ss
  | [], [], _ => .nil
  | x :: xs, S :: Ss, h => by
    simp only [saysAllB, Bool.and_eq_true] at h
    exact .cons (saysB_says h.1) (saysAllB_says h.2)

theorem says_lib : List.Forall₂ SaysSig (funcTexts bindStandardLib) libSigs := saysAllB_says (by decide +kernel)
theorem says_dict : List.Forall₂ SaysSig (funcTexts bindStandardDict) dictSigs := saysAllB_says (by decide +kernel)
theorem says_io : List.Forall₂ SaysSig (funcTexts bindStandardIO) ioSigs := saysAllB_says (by decide +kernel)
theorem says_i64 : List.Forall₂ SaysSig (funcTexts bindI64) i64Sigs := saysAllB_says (by decide +kernel)

/-! ## The five functions -/

/-- The names can be bound: no function has the name of one of the signatures, no macro one of the names `ms`, no
variable or constant one of the names `cs`. -/
structure CanBind (s : TState) (Ss : List Signature) (ms cs : List Name) : Prop where
  funcs : ∀ S ∈ Ss, NoFunction s.front S.name
  macros : ∀ n ∈ ms, Sym.module n ∉ s.front.syms
  consts : ∀ n ∈ cs, ∀ x ∈ s.front.syms, x.isVar n = false
  outside : s.front.currFunc = .none

/-- All went well: the functions are declared, with the numbers from `f.numForeign` on, the types are known, and what was
declared before still is. -/
structure LibBound (f f' : Front) (Ss : List Signature) (types : List Name) : Prop where
  declared : ∀ (k : Nat) S, Ss[k]? = some S → Declared f' S (f.numForeign + k)
  types : ∀ n ∈ types, KnownType f' n
  old : ∀ S i, Declared f S i → Declared f' S i
  oldTypes : ∀ n, KnownType f n → KnownType f' n

theorem run_bound (strtod : List UInt8 → BitVec 64) {L : List StdCall} {Ss : List Signature} {s : TState}
    (h : List.Forall₂ SaysSig (funcTexts L) Ss) (h1 : (Ss.map Signature.name).Nodup) (h2 : (macroNames L).Nodup)
    (h3 : (constNames L).Nodup) (hc : CanBind s Ss (macroNames L) (constNames L)) :
    ∃ f', runStd strtod L s = .ok () { s with front := f' } ∧ LibBound s.front f' Ss (typeNames L) := by
  obtain ⟨f', k1, k2, k3, k4, k5⟩ := runStd_ok strtod L h h1 h2 h3 hc.funcs hc.macros hc.consts hc.outside
  exact ⟨f', k1, k4, k5, fun S i h => k2 _ _ h, k3⟩

/-- **C50.** `Tiny_BindStandardLib` declares what it should. -/
theorem c50_lib (strtod : List UInt8 → BitVec 64) {s : TState}
    (h : CanBind s libSigs [bytes "delegate", bytes "json"] [bytes "INT_MAX"]) :
    ∃ f', runStd strtod bindStandardLib s = .ok () { s with front := f' } ∧ LibBound s.front f' libSigs [] :=
  run_bound strtod says_lib (by decide +kernel) (by decide +kernel) (by decide +kernel) h

/-- **C50.** `Tiny_BindStandardDict` declares what it should. -/
theorem c50_dict (strtod : List UInt8 → BitVec 64) {s : TState} (h : CanBind s dictSigs [] []) :
    ∃ f', runStd strtod bindStandardDict s = .ok () { s with front := f' } ∧
      LibBound s.front f' dictSigs [bytes "array_any", bytes "array_str", bytes "dict", bytes "dict_str_int"] :=
  run_bound strtod says_dict (by decide +kernel) (by decide +kernel) (by decide +kernel) h

/-- **C50.** `Tiny_BindStandardIO` declares what it should. -/
theorem c50_io (strtod : List UInt8 → BitVec 64) {s : TState} (h : CanBind s ioSigs [] []) :
    ∃ f', runStd strtod bindStandardIO s = .ok () { s with front := f' } ∧ LibBound s.front f' ioSigs [bytes "file"] :=
  run_bound strtod says_io (by decide +kernel) (by decide +kernel) (by decide +kernel) h

/-- **C50.** `Tiny_BindI64` declares what it should. -/
theorem c50_i64 (strtod : List UInt8 → BitVec 64) {s : TState} (h : CanBind s i64Sigs [] []) :
    ∃ f', runStd strtod bindI64 s = .ok () { s with front := f' } ∧ LibBound s.front f' i64Sigs [bytes "i64"] :=
  run_bound strtod says_i64 (by decide +kernel) (by decide +kernel) (by decide +kernel) h

theorem funcTexts_append : ∀ L M, funcTexts (L ++ M) = funcTexts L ++ funcTexts M
  | [], _ => rfl
  | c :: L, M => by cases c <;> simp [funcTexts, funcTexts_append L M]

/-- All of it, as the example interpreter does it (examples/terp/src/main.c:103-106), and the 64 bit integers. -/
def bindAll : List StdCall := bindStandardIO ++ bindStandardArray ++ bindStandardDict ++ bindStandardLib ++ bindI64

/-- **C50.** In a new state, all of them succeed. -/
theorem c50_std (strtod : List UInt8 → BitVec 64) : ∃ f', runStd strtod bindAll {} = .ok () { front := f' } ∧
    LibBound {} f' (ioSigs ++ dictSigs ++ libSigs ++ i64Sigs)
      (["file", "array_any", "array_str", "dict", "dict_str_int", "i64"].map bytes) := by
  refine run_bound strtod (L := bindAll) ?_ (by decide +kernel) (by decide +kernel) (by decide +kernel) ⟨?_, ?_, ?_, rfl⟩
  · simp only [bindAll, funcTexts_append]
    exact List.rel_append (List.rel_append (List.rel_append (by simpa [bindStandardArray, funcTexts] using says_io) says_dict) says_lib) says_i64
  · intro S _ x h; cases h
  · intro n _ h; cases h
  · intro n _ x h; cases h

/-! ## Sessions -/

theorem referenceVariable_noErr {n : Name} {f t : Front} (h : referenceVariable n f = .err t) : False := by
  have hc : ∀ t, currentFunc f ≠ .err t := by
    intro t h
    unfold currentFunc at h
    split at h
    · cases h
    · cases h
    · split at h <;> cases h
  unfold referenceVariable at h
  rw [Act.bind_apply] at h
  cases hf : currentFunc f with
  | ok r s =>
    rw [hf] at h
    dsimp only at h
    cases hl : lookupFunc n r with
    | some r => rw [hl] at h; cases h
    | none => rw [hl] at h; cases h
  | err s => exact hc _ hf
  | _ => rw [hf] at h; cases h

theorem callsOnly_call (strtod : List UInt8 → BitVec 64) (c : StdCall) : CallsOnly (c.run strtod) := by
  cases c with
  | type n => exact callsOnly_front (hosts_register _)
  | func x => exact callsOnly_bind strtod _
  | «macro» n =>
    refine callsOnly_front fun f => ?_
    cases h : bindMacro (nameOf n) f with
    | ok u f' => exact .single (.module h)
    | err f' =>
      unfold bindMacro at h
      simp only [Act.bind_apply, Act.get] at h
      split at h <;> cases h
    | _ => trivial
  | constInt n v =>
    intro s
    have hc : HostsF (declareConst (nameOf n) .int (.int v)) := fun f => by
      cases h : declareConst (nameOf n) .int (.int v) f with
      | ok u f' => exact .single (.const (v := .int v) h)
      | err f' =>
        have : f' = f := by
          unfold declareConst at h
          rw [Act.bind_apply] at h
          cases h' : referenceVariable (nameOf n) f with
          | ok r t =>
            rw [h'] at h
            have := referenceVariable_state h'
            subst this
            cases r with
            | none => cases h
            | some r => cases h; rfl
          | err t => exact (referenceVariable_noErr h').elim
          | _ => rw [h'] at h; cases h
        rw [this]
      | _ => trivial
    have k := callsOnly_front hc s
    simp only [StdCall.run]
    cases h : onFront (declareConst (nameOf n) .int (.int v)) s with
    | err s' =>
      rw [h] at k
      dsimp only
      by_cases hn : s.nest = 0
      · rw [if_pos hn]; trivial
      · rw [if_neg hn]; exact k
    | ok u s' => rw [h] at k; exact k
    | _ => trivial

theorem callsOnly_std (strtod : List UInt8 → BitVec 64) : ∀ L, CallsOnly (runStd strtod L)
  | [] => .pure ()
  | c :: L => (callsOnly_call strtod c).bind fun _ => callsOnly_std strtod L

theorem calls_setup {f f' : Front} (hf : Setup f) (h : Calls f f') : Setup f' := by
  induction h with
  | refl => exact hf
  | tail _ h ih => exact .call ih h

/-- **C50.** A host which binds parts of the standard library, in any order, is one of those the theorems about sessions
are about (C48). -/
theorem c50_setup {strtod : List UInt8 → BitVec 64} {L : List StdCall} {s s' : TState} (h0 : Setup s.front)
    (h : runStd strtod L s = .ok () s') : Setup s'.front := by
  have := callsOnly_std strtod L s
  rw [h] at this
  exact calls_setup h0 this.1

end Tiny
