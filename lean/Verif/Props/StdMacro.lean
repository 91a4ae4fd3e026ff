import Verif.Proofs.JsonMeans
import Verif.Spec.StdMacro

/-!
# C56: the macros `json` and `delegate`
-/

namespace Tiny
open Spec

/-! ## `use json("T")` -/

theorem atUse_tables {s : TState} (h : AtUse s) : Tables s.front ∧ s.front.currFunc = .none := by
  induction h with
  | host h => exact history_tables h
  | parsed h ht hp =>
    obtain ⟨a, b⟩ := history_tables h
    have pp := parse_parsed ht a b hp
    exact ⟨pp.tables, pp.cur⟩
  | @used E s m args a b s' _ hE h ih =>
    have k := hE m args a s ih.1 ih.2
    rw [h] at k
    exact ⟨k.2.2.1, k.2.2.2⟩

theorem mem_procs {i : Nat} {fn : Fn} {x : Stmt} {prog : List Stmt} (hx : x ∈ prog) (h : (i, fn) ∈ procs x) : (i, fn) ∈ procsL prog := by
  induction prog with
  | nil => cases hx
  | cons y ys ih =>
    rw [procsL, List.mem_append]
    rcases List.mem_cons.1 hx with rfl | hx
    · exact .inl h
    · exact .inr (ih hx)

theorem forall₂_mem {α β : Type} {R : α → β → Prop} {l : List α} {l' : List β} (h : List.Forall₂ R l l') {x : α} (hx : x ∈ l) : ∃ y ∈ l', R x y := by
  induction h with
  | nil => cases hx
  | cons k _ ih =>
    rcases List.mem_cons.1 hx with rfl | hx
    · exact ⟨_, by simp, k⟩
    · obtain ⟨y, hy, r⟩ := ih hx
      exact ⟨y, List.mem_cons_of_mem _ hy, r⟩

theorem key_zero {n : Name} (h : IsIdent n) : 0 ∉ jsonKey n := by
  simp only [jsonKey, List.mem_append, not_or]
  exact ⟨⟨by decide +kernel, ident_zero h⟩, by decide +kernel⟩

/-- The unit of a struct, in a later program. -/
theorem unit_writes {u : JStruct} {p : Front × List Stmt} (h : JsonUnit u p) {f' : Front} (hp : PrefixTo p.1 f') {s : TState} (hle : FrontLe f' s.front)
    (hst : f'.strings <+: s.front.strings) (h256 : f'.strings.length ≤ 256) {prog : List Stmt} (hin : ∀ x ∈ p.2, x ∈ prog) {c : Ctx} {env : Env}
    (M : MachineOf s prog c env) (hc : ∀ (i : Nat) x, s.front.strings[i]? = some x → c.cmem i = x)
    (hj : ∀ S, c.globals.funcs (bytes "strcat") = some S → JoinsTexts c S) : WritesStruct c u.1 u.2 := by
  obtain ⟨fi, es, e1, e2, e3, e4, e5, e6, e7⟩ := h
  have le : FrontLe p.1 s.front := (prefix_frontLe hp.1).trans hle
  have gl := globals_le le
  rw [← M.globals] at gl
  have hs : c.globals.structs u.1 = some u.2 := by
    refine gl.structs _ _ ?_
    unfold globalsOf
    simp only [info_of e5.type]
  have hS : ∃ S, c.globals.funcs (bytes "strcat") = some S := by
    obtain ⟨i, hi⟩ := e5.strcat
    exact ⟨_, gl.funcs _ _ (by unfold globalsOf; simp only [hi]; rfl)⟩
  obtain ⟨S, hS⟩ := hS
  have hF : c.globals.funcs (jsonFn u.1) = some (.tiny fi.index) := by
    refine gl.funcs _ _ ?_
    unfold globalsOf
    simp only [e2]
    rfl
  have hfn : c.fns fi.index = some ⟨1, 0, .node 1 (.block [.node 2 (.ret (some (.call (bytes "strcat") es)))])⟩ := by
    rw [M.fns]
    refine mem_procs (hin _ (by rw [e1]; exact List.mem_singleton.2 rfl)) ?_
    simp [procs]
  have hcm : ∀ (i : Nat) x, p.1.strings[i]? = some x → c.cmem i = x ∧ i < c.numStrings ∧ i ≤ 255 := by
    intro i x hi
    have hlt := (List.getElem?_eq_some_iff.1 hi).1
    have h1 := hp.2.length_le
    have hpre := hp.2.trans hst
    have h2 := hpre.length_le
    refine ⟨hc i x ?_, by rw [M.strings]; omega, by omega⟩
    obtain ⟨t, ht⟩ := hpre
    rw [← ht, List.getElem?_append_left hlt]
    exact hi
  intro h o vals ms hfresh ho hv hw
  exact ⟨_, hF, call_unit hs e6 (fun q hq => key_zero (e3 q hq)) hcm hfn e4 hS (hj S hS) ho hv hw⟩

/-- **C56, `use json("T")`.** Where a macro can be called, for a struct whose fields can be written: the macro succeeds. What
it does is to compile, one after the other, the sources of functions, each for another struct for which there was none; one
of them is the struct it was called for, and if there was none for the type of a field of one of them, that is one of them, too.
In every later program, these functions write structs as JSON objects, if the
functions for the types of the fields write the fields and `strcat` joins strings. (String constants from number 256 on are
compiled wrongly: `c20_defect_*`.) -/
theorem c56_json {E : CompileEnv} {s : TState} (h : AtUse s) (hn : s.nest < maxNest) (hs : HasStrcat s.front) {n : Name} {fs : List (Name × Tag)}
    (ht : s.front.syms.find? (IsTypeNamed n) = some (.struct n true fs)) (hw : Writable s.front (.named n)) (hf : NoFunction s.front (jsonFn n))
    (hm : ¬ TooMany s.front (JsonLiteral s.front)) (a : Option Name) :
    ∃ (us : List (Name × List (Name × Tag))) (ps : List (Front × List Stmt)) (s' : TState), (∃ K N, ∀ k, K ≤ k → ∀ m, N ≤ m → jsonMacro { E with fuel := m } k [n] a s = .ok true s' ∧
        Compiles { E with fuel := m } (bytes "(json mod)") (us.map fun u => jsonFunc u.1 (namedFields u.2)) s s') ∧
      (n, fs) ∈ us ∧ (us.map Prod.fst).Nodup ∧
      (∀ u ∈ us, s.front.syms.find? (IsTypeNamed u.1) = some (.struct u.1 true u.2) ∧ NoFunction s.front (jsonFn u.1)) ∧
      (∀ u ∈ us, ∀ p ∈ u.2, NoFunction s.front (jsonFn p.2.name) → p.2.name ∈ us.map Prod.fst) ∧
      Session s s' ps ∧
      ∀ s2 qs prog c env, Session s' s2 qs → (∀ x ∈ Spec.program ps, x ∈ prog) → MachineOf s2 prog c env →
        s'.front.strings.length ≤ 256 → (∀ (i : Nat) x, s2.front.strings[i]? = some x → c.cmem i = x) →
        (∀ S, c.globals.funcs (bytes "strcat") = some S → JoinsTexts c S) → ∀ u ∈ us, WritesStruct c u.1 u.2 := by
  obtain ⟨hT, hc⟩ := atUse_tables h
  have hb : (∀ p ∈ builtinTypes, bytes p.1 ≠ n) ∧ (jsonSource n (namedFields fs)).length < 2048 := by
    cases hw with
    | known h1 h2 =>
      have := hf _ (List.mem_of_find?_eq_some h1)
      rw [show IsFuncNamed (jsonFn n) _ = true from List.find?_some h1] at this
      cases this
    | struct h1 h2 h3 h4 h5 h6 h7 h8 h9 =>
      rw [ht] at h1
      cases h1
      exact ⟨h2, h8⟩
  have ext : JExt s.front [] s := ⟨hT, hc, hn, .refl, ⟨[], by simp, .nil⟩, by simp, by simp⟩
  obtain ⟨K, N, us, s', a1, a2, a3, a4, a5, a6, ps, b1, b2, b3, b4⟩ := binds (E := E) hs hm hw (own_len hb.2) [] s ext
  rw [List.nil_append] at a2
  refine ⟨us, ps, s', ⟨K, N, fun k hk m hm => ⟨?_, (a1 k hk m hm).2⟩⟩, ?_, a2.nodup, a2.structs, ?_, b1, ?_⟩
  · have e1 : findTypeSymbol n s.front = some (.named n) := by
      unfold findTypeSymbol
      simp only [prim_none.2 hb.1, type_named, ht]
      simp [Sym.asType]
    have e2 : tagFields s.front (.named n) = some fs := by
      unfold tagFields
      simp only [type_named, ht]
    unfold jsonMacro
    simp only [Act.bind_apply, act_get_ok, e1, e2, Option.isSome_some, if_true]
    exact (a1 k hk m hm).1
  · obtain ⟨x, h1, -⟩ := a3
    obtain ⟨js, e, hj⟩ := a2.syms
    rcases find_json hj n with ⟨-, g2⟩ | ⟨g1, -⟩
    · unfold referenceFunction at h1
      rw [show (Tag.named n).name = n from rfl, e, List.find?_append, no_find hf, g2] at h1
      cases h1
    · obtain ⟨u, hu, rfl⟩ := List.mem_map.1 g1
      have := (a2.structs u hu).1
      rw [ht] at this
      cases this
      exact hu
  · intro u hu p hp hno
    obtain ⟨q, hq, fi, es, -, -, -, -, -, -, hall⟩ := forall₂_mem b2 hu
    obtain ⟨x, hx, -⟩ := hall p hp
    obtain ⟨js, e, hj⟩ := a2.syms
    rcases find_json hj p.2.name with ⟨-, g2⟩ | ⟨g1, -⟩
    · have h1 : q.1.syms <+: s'.front.syms := (b3 q hq).1
      have h2 : s'.front.syms.find? (·.isFunc (jsonFn p.2.name)) = none := by
        rw [e, List.find?_append, no_find hno, g2]
        rfl
      obtain ⟨xs, e'⟩ := h1
      unfold referenceFunction at hx
      rw [← e', List.find?_append, hx] at h2
      cases h2
    · exact g1
  · intro s2 qs prog c env hs2 hin M h256 hcm hj u hu
    obtain ⟨c1, -, -, -⟩ := session_keeps hs2 a2.tables a2.cur
    obtain ⟨p, hp, hup⟩ := forall₂_mem b2 hu
    exact unit_writes hup (b3 p hp) c1.syms c1.strings h256 (fun x hx => hin x (List.mem_flatMap.2 ⟨p, hp, hx⟩)) M hcm hj

theorem json_of {c : Ctx} {us : List (Name × List (Name × Tag))} {h : Heap} (hf : ∀ a ∈ h.list, a < h.next) (hu : ∀ u ∈ us, WritesStruct c u.1 u.2)
    {t : Name} {v : Value} {x : List UInt8} (hj : JsonOf c us h t v x) : ∃ g, c.globals.funcs (jsonFn t) = some g ∧ WritesAs c g h v x :=
  JsonOf.rec (motive_1 := fun t v x _ => ∃ g, c.globals.funcs (jsonFn t) = some g ∧ WritesAs c g h v x)
    (motive_2 := fun fs vs ms _ => FieldsWritten c h fs vs ms) (fun h1 h2 => ⟨_, h1, h2⟩) (fun h1 h2 h3 _ ih => hu _ h1 h _ _ _ hf h2 h3 ih) trivial
    (fun _ _ h1 h2 => ⟨rfl, h1, h2⟩) hj

/-- **C56, at every depth.** With such functions, structs in structs, and so on, are written as JSON objects in JSON objects. -/
theorem c56_nested {c : Ctx} {us : List (Name × List (Name × Tag))} (hu : ∀ u ∈ us, WritesStruct c u.1 u.2) {h : Heap} (hf : ∀ a ∈ h.list, a < h.next)
    {t : Name} {v : Value} {x : List UInt8} (hj : JsonOf c us h t v x) : ∃ g, c.globals.funcs (jsonFn t) = some g ∧ WritesAs c g h v x :=
  json_of hf hu hj

/-! ## What else `json` does -/

/-- The macro fails unless it is given exactly one name. -/
theorem c56_args {E : CompileEnv} {k : Nat} {args : List Name} (h : args.length ≠ 1) (a : Option Name) (s : TState) :
    jsonMacro E k args a s = .ok false s := by
  match args, h with
  | [], _ => rfl
  | [_], h => exact (h rfl).elim
  | _ :: _ :: _, _ => rfl

/-- A name of a type which is not a struct: one of the language, or one registered by the host. -/
theorem c56_not_struct {E : CompileEnv} {k : Nat} {n : Name} {s : TState}
    (h : (∃ p ∈ builtinTypes, bytes p.1 = n) ∨ Registered s.front n) (a : Option Name) :
    jsonMacro E k [n] a s = .ok false s := by
  have key : ∃ t, findTypeSymbol n s.front = some t ∧ tagFields s.front t = none := by
    by_cases hp : ∀ p ∈ builtinTypes, bytes p.1 ≠ n
    · rcases h with ⟨p, hp1, hp2⟩ | h
      · exact (hp p hp1 hp2).elim
      · rw [Registered] at h
        refine ⟨.named n, ?_, ?_⟩
        · unfold findTypeSymbol
          simp only [prim_none.2 hp, type_named, h]
          simp [Sym.asType]
        · unfold tagFields
          simp only [type_named, h]
    · have : ∃ t, primTag n = some t := by
        cases hq : primTag n with
        | some t => exact ⟨t, rfl⟩
        | none => exact (hp (prim_none.1 hq)).elim
      obtain ⟨t, ht⟩ := this
      refine ⟨t, ?_, ?_⟩
      · unfold findTypeSymbol
        simp only [ht]
      · have : ∀ p ∈ builtinTypes, tagFields s.front p.2 = none := by
          intro p hp
          simp only [builtinTypes, List.mem_cons, List.not_mem_nil, or_false] at hp
          rcases hp with rfl | rfl | rfl | rfl | rfl | rfl <;> rfl
        rw [prim_builtin, Option.map_eq_some_iff] at ht
        obtain ⟨p, h1, rfl⟩ := ht
        exact this p (List.mem_of_find?_eq_some h1)
  obtain ⟨t, h1, h2⟩ := key
  unfold jsonMacro
  simp only [Act.bind_apply, act_get_ok, h1, h2]
  rfl

/-- **C56, defect.** For a name which is not that of a type, a NULL pointer is read (std.c:840). -/
theorem c56_defect_unknown {E : CompileEnv} {k : Nat} {n : Name} {s : TState} (h : ¬ KnownType s.front n) (a : Option Name) : jsonMacro E k [n] a s = .ub := by
  have e : findTypeSymbol n s.front = none := by
    have hb : ∀ p ∈ builtinTypes, bytes p.1 ≠ n := fun p hp e => h (.inl ⟨p, hp, e⟩)
    unfold findTypeSymbol
    simp only [prim_none.2 hb, type_named]
    cases hx : s.front.syms.find? (IsTypeNamed n) with
    | none => rfl
    | some x =>
      have hn := List.find?_some hx
      cases x with
      | ftype m =>
        have : m = n := by simpa [IsTypeNamed] using hn
        exact (h (.inr (.inl (this ▸ hx)))).elim
      | struct m d fs =>
        have : m = n := by simpa [IsTypeNamed] using hn
        subst this
        cases d with
        | true => exact (h (.inr (.inr ⟨fs, hx⟩))).elim
        | false => rfl
      | _ => cases hn
  unfold jsonMacro
  simp only [Act.bind_apply, act_get_ok, e]
  rfl

/-- A second use of the macro, or of one for a struct which has such a field, changes nothing. -/
theorem c56_again {E : CompileEnv} {k : Nat} {n : Name} {fs : List (Name × Tag)} {s : TState} (hp : ∀ p ∈ builtinTypes, bytes p.1 ≠ n)
    (ht : s.front.syms.find? (IsTypeNamed n) = some (.struct n true fs)) (hf : ¬ NoFunction s.front (jsonFn n)) (hl : n.length < 2040)
    (a : Option Name) : jsonMacro E (k + 1) [n] a s = .ok true s := by
  have e1 : findTypeSymbol n s.front = some (.named n) := by
    unfold findTypeSymbol
    simp only [prim_none.2 hp, type_named, ht]
    simp [Sym.asType]
  have e2 : tagFields s.front (.named n) = some fs := by
    unfold tagFields
    simp only [type_named, ht]
  unfold jsonMacro
  simp only [Act.bind_apply, act_get_ok, e1, e2, Option.isSome_some, if_true]
  refine bindJson_has ?_ ?_
  · unfold findFuncSymbol referenceFunction
    rw [isFunc_named, List.find?_isSome]
    rw [NoFunction] at hf
    simp only [not_forall, Bool.not_eq_false] at hf
    obtain ⟨x, hx, hf⟩ := hf
    exact ⟨x, hx, hf⟩
  · show (n ++ bytes "_to_json").length < _
    rw [List.length_append]
    have : (bytes "_to_json").length = 8 := by decide +kernel
    omega

theorem bind_notStruct {E : CompileEnv} {k : Nat} {t : Tag} {s : TState} (h : NotStruct s.front t) : bindJson E (k + 1) t s = .ok true s := by
  have e : tagFields s.front t = none := by
    rcases h with ⟨p, hp, rfl⟩ | ⟨n, rfl, h⟩
    · simp only [builtinTypes, List.mem_cons, List.not_mem_nil, or_false] at hp
      rcases hp with rfl | rfl | rfl | rfl | rfl | rfl <;> rfl
    · unfold tagFields
      rw [Registered] at h
      simp only [type_named, h]
  rw [bindJson]
  simp only [Act.bind_apply, act_get_ok, e]
  rfl

theorem fields_eq {n : Name} {fs : List (Name × Tag)} (h : (jsonSource n (namedFields fs)).length < 2048) (bind : Tag → Act TState Bool) :
    jsonFields bind 0 fs ⟨(jsonHead n).length, jsonHead n⟩ = bindEach bind fs >>= fun _ =>
      pure ⟨(jsonHead n ++ jsonFieldsText (fieldNames fs)).length, jsonHead n ++ jsonFieldsText (fieldNames fs)⟩ := by
  refine fields_all bind fs _ ?_
  have e : jsonSource n (namedFields fs) = jsonHead n ++ jsonFieldsText (fieldNames fs) ++ jsonTail := json_source n _
  rw [e, List.length_append] at h
  show _ < 2048
  omega

theorem bindEach_all {bind : Tag → Act TState Bool} {s : TState} : ∀ {fs : List (Name × Tag)}, (∀ p ∈ fs, bind p.2 s = .ok true s) → bindEach bind fs s = .ok () s
  | [], _ => rfl
  | p :: fs, h => by
    show (bind p.2 >>= fun _ => bindEach bind fs) s = _
    rw [Act.bind_apply, h p (by simp)]
    exact bindEach_all fun q hq => h q (List.mem_cons_of_mem _ hq)

/-- If no field is a struct, whether the macro succeeds is whether the source can be compiled (it cannot if there is no function
for the type of a field). -/
theorem c56_flat {E : CompileEnv} {s : TState} {n : Name} {fs : List (Name × Tag)} {k : Nat} (hb : ∀ p ∈ builtinTypes, bytes p.1 ≠ n)
    (ht : s.front.syms.find? (IsTypeNamed n) = some (.struct n true fs)) (hf : NoFunction s.front (jsonFn n)) (hs : ∀ p ∈ fs, NotStruct s.front p.2)
    (h : (jsonSource n (namedFields fs)).length < 2048) (a : Option Name) :
    jsonMacro E (k + 2) [n] a s = compileString E (some (bytes "(json mod)")) (jsonSource n (namedFields fs)) s := by
  have e1 : findTypeSymbol n s.front = some (.named n) := by
    unfold findTypeSymbol
    simp only [prim_none.2 hb, type_named, ht]
    simp [Sym.asType]
  have e2 : tagFields s.front (.named n) = some fs := by
    unfold tagFields
    simp only [type_named, ht]
  have hl := own_len h
  have hn : (n ++ nameOf "_to_json").take (jsonCap - 1) = jsonFn n :=
    List.take_of_length_le (by show (jsonFn n).length ≤ 2047; exact Nat.le_of_lt_succ hl)
  have e : jsonSource n (namedFields fs) = jsonHead n ++ jsonFieldsText (fieldNames fs) ++ jsonTail := json_source n _
  have h' := h
  rw [e] at h'
  have hb : TextBuf.add jsonCap {} (jsonHead n) = pure ⟨(jsonHead n).length, jsonHead n⟩ := by
    refine buf_add (x := []) ?_
    rw [List.length_append, List.length_append] at h'
    show _ < 2048
    rw [List.nil_append]
    omega
  have hnone : findFuncSymbol (jsonFn n) s.front = none := no_find hf
  unfold jsonMacro
  simp only [Act.bind_apply, act_get_ok, e1, e2, Option.isSome_some, if_true]
  rw [bindJson]
  have hall : bindEach (bindJson E (k + 1)) fs s = .ok () s := bindEach_all fun p hp => bind_notStruct (hs p hp)
  simp only [Act.bind_apply, act_get_ok, e2, Tag.name, hn, hnone, Option.isSome_none, hb, Bool.false_eq_true, if_false, act_pure_ok, fields_eq h, hall]
  rw [buf_add (cap := jsonCap) h']
  simp only [act_pure_ok, e]
  rfl

theorem bindEach_stuck {bind : Tag → Act TState Bool} {s : TState} {p : Name × Tag} {post : List (Name × Tag)} (ht : bind p.2 s = .timeout) :
    ∀ {pre : List (Name × Tag)}, (∀ q ∈ pre, bind q.2 s = .ok true s ∨ bind q.2 s = .timeout) → bindEach bind (pre ++ p :: post) s = .timeout
  | [], _ => by
    show (bind p.2 >>= fun _ => bindEach bind post) s = _
    rw [Act.bind_apply, ht]
  | q :: pre, h => by
    show (bind q.2 >>= fun _ => bindEach bind (pre ++ p :: post)) s = _
    rw [Act.bind_apply]
    rcases h q (by simp) with e | e <;> rw [e]
    exact bindEach_stuck ht fun q hq => h q (List.mem_cons_of_mem _ hq)

/-- **C56, defect.** For structs of which each has, after fields of other types, a field of one of these types - a list of
nodes is one - the macro calls itself without end (std.c:807): with every bound on the depth, the bound is reached. -/
theorem c56_defect_recursive {E : CompileEnv} {s : TState} {L : Name → Prop}
    (h : ∀ n, L n → (∀ p ∈ builtinTypes, bytes p.1 ≠ n) ∧ NoFunction s.front (jsonFn n) ∧ ∃ pre x m post,
      s.front.syms.find? (IsTypeNamed n) = some (.struct n true (pre ++ (x, .named m) :: post)) ∧
      (jsonSource n (namedFields (pre ++ (x, .named m) :: post))).length < 2048 ∧ (∀ q ∈ pre, NotStruct s.front q.2) ∧ L m)
    {n : Name} (hn : L n) (k : Nat) (a : Option Name) : jsonMacro E k [n] a s = .timeout := by
  have key : ∀ k n, L n → bindJson E k (.named n) s = .timeout := by
    intro k
    induction k with
    | zero => intros; rfl
    | succ k ih =>
      intro n hn
      obtain ⟨h1, h2, pre, x, m, post, h3, h4, h5, h6⟩ := h n hn
      have e2 : tagFields s.front (.named n) = some (pre ++ (x, .named m) :: post) := by
        unfold tagFields
        simp only [type_named, h3]
      have hl := own_len h4
      have hn : (n ++ nameOf "_to_json").take (jsonCap - 1) = jsonFn n :=
        List.take_of_length_le (by show (jsonFn n).length ≤ 2047; exact Nat.le_of_lt_succ hl)
      have hb : TextBuf.add jsonCap {} (jsonHead n) = pure ⟨(jsonHead n).length, jsonHead n⟩ := by
        refine buf_add (x := []) ?_
        have e : jsonSource n (namedFields (pre ++ (x, .named m) :: post)) = jsonHead n ++ jsonFieldsText (fieldNames (pre ++ (x, .named m) :: post)) ++ jsonTail := json_source n _
        rw [e, List.length_append, List.length_append] at h4
        show _ < 2048
        rw [List.nil_append]
        omega
      have hnone : findFuncSymbol (jsonFn n) s.front = none := no_find h2
      rw [bindJson]
      simp only [Act.bind_apply, act_get_ok, e2, Tag.name, hn, hnone, Option.isSome_none, hb]
      have : bindEach (bindJson E k) (pre ++ (x, .named m) :: post) s = .timeout := by
        refine bindEach_stuck (ih m h6) fun q hq => ?_
        cases k with
        | zero => exact .inr rfl
        | succ k => exact .inl (bind_notStruct (h5 q hq))
      simp only [Bool.false_eq_true, if_false, Act.bind_apply, act_pure_ok, fields_eq h4, this]
  obtain ⟨h1, h2, pre, x, m, post, h3, h4, h5, h6⟩ := h n hn
  have e1 : findTypeSymbol n s.front = some (.named n) := by
    unfold findTypeSymbol
    simp only [prim_none.2 h1, type_named, h3]
    simp [Sym.asType]
  have e2 : tagFields s.front (.named n) = some (pre ++ (x, .named m) :: post) := by
    unfold tagFields
    simp only [type_named, h3]
  unfold jsonMacro
  simp only [Act.bind_apply, act_get_ok, e1, e2, Option.isSome_some, if_true]
  exact key k n hn

/-- How `used` grows. -/
theorem fields_used {bind : Tag → Act TState Bool} {s : TState} : ∀ {fs : List (Name × Tag)} (i : Nat) (b : TextBuf), (∀ p ∈ fs, bind p.2 s = .ok true s) →
    jsonFields bind (i + 1) fs b s = .ub ∨ ∃ b', jsonFields bind (i + 1) fs b s = .ok b' s ∧ b'.used = b.used + (laterText fs).length
  | [], i, b, _ => .inr ⟨b, rfl, rfl⟩
  | p :: ps, i, b, h => by
    rw [jsonFields, if_pos (Nat.succ_pos i)]
    simp only [Act.bind_apply, TextBuf.add]
    by_cases h1 : jsonCap < b.used
    · rw [if_pos h1]
      exact .inl rfl
    rw [if_neg h1]
    simp only [act_pure_ok, h p (by simp)]
    by_cases h2 : jsonCap < b.used + jsonSep.length
    · rw [if_pos h2]
      exact .inl rfl
    rw [if_neg h2]
    simp only [act_pure_ok]
    rcases fields_used (i + 1) ⟨b.used + jsonSep.length + (jsonField p.1 p.2.name).length, _⟩ (fun q hq => h q (List.mem_cons_of_mem _ hq)) with e | ⟨b', e1, e2⟩
    · exact .inl e
    · refine .inr ⟨b', e1, ?_⟩
      rw [e2]
      simp only [laterText, List.flatMap_cons, List.length_append]
      omega

/-- **C56, defect.** If the source is longer than the buffer, by more than what is written last, `snprintf` writes past its
end (std.c:788, 815: `sizeof(buf) - used` is about 2^64 then). -/
theorem c56_defect_long {E : CompileEnv} {s : TState} {n : Name} {fs : List (Name × Tag)} {k : Nat} (hb : ∀ p ∈ builtinTypes, bytes p.1 ≠ n)
    (ht : s.front.syms.find? (IsTypeNamed n) = some (.struct n true fs)) (hf : NoFunction s.front (jsonFn n)) (hl : n.length < 2040)
    (hs : ∀ p ∈ fs, NotStruct s.front p.2) (h : 2048 + (bytes ",\n\t\"}\")\n}").length < (jsonSource n (namedFields fs)).length) (a : Option Name) :
    jsonMacro E (k + 2) [n] a s = .ub := by
  have e1 : findTypeSymbol n s.front = some (.named n) := by
    unfold findTypeSymbol
    simp only [prim_none.2 hb, type_named, ht]
    simp [Sym.asType]
  have e2 : tagFields s.front (.named n) = some fs := by
    unfold tagFields
    simp only [type_named, ht]
  have hn : (n ++ nameOf "_to_json").take (jsonCap - 1) = jsonFn n := by
    refine List.take_of_length_le ?_
    rw [List.length_append]
    have : (nameOf "_to_json").length = 8 := by decide +kernel
    show _ ≤ 2047
    omega
  have hnone : findFuncSymbol (jsonFn n) s.front = none := no_find hf
  have e : jsonSource n (namedFields fs) = jsonHead n ++ jsonFieldsText (fieldNames fs) ++ jsonTail := json_source n _
  have ht : jsonTail.length = (bytes ",\n\t\"}\")\n}").length := by decide +kernel
  rw [e, List.length_append, List.length_append, ht] at h
  have hall : ∀ p ∈ fs, bindJson E (k + 1) p.2 s = .ok true s := fun p hp => bind_notStruct (hs p hp)
  unfold jsonMacro
  simp only [Act.bind_apply, act_get_ok, e1, e2, Option.isSome_some, if_true]
  rw [bindJson]
  simp only [Act.bind_apply, act_get_ok, e2, Tag.name, hn, hnone, Option.isSome_none, Bool.false_eq_true, if_false]
  rw [show TextBuf.add jsonCap {} (jsonHead n) = pure ⟨(jsonHead n).length, (jsonHead n).take (jsonCap - 1)⟩ from by unfold TextBuf.add; rw [if_neg (Nat.not_lt_zero _)]; simp]
  simp only [act_pure_ok]
  have key : jsonFields (bindJson E (k + 1)) 0 fs ⟨(jsonHead n).length, (jsonHead n).take (jsonCap - 1)⟩ s = .ub ∨
      ∃ b', jsonFields (bindJson E (k + 1)) 0 fs ⟨(jsonHead n).length, (jsonHead n).take (jsonCap - 1)⟩ s = .ok b' s ∧
        b'.used = (jsonHead n).length + (jsonFieldsText (fieldNames fs)).length := by
    cases fs with
    | nil => exact .inr ⟨_, rfl, rfl⟩
    | cons p ps =>
      rw [jsonFields, if_neg (Nat.lt_irrefl 0)]
      simp only [Act.bind_apply, act_pure_ok, hall p (by simp), TextBuf.add]
      by_cases h2 : jsonCap < (jsonHead n).length
      · rw [if_pos h2]
        exact .inl rfl
      rw [if_neg h2]
      simp only [act_pure_ok]
      rcases fields_used 0 ⟨(jsonHead n).length + (jsonField p.1 p.2.name).length, _⟩ (fun q hq => hall q (List.mem_cons_of_mem _ hq)) with e | ⟨b', e1, e2⟩
      · exact .inl e
      · refine .inr ⟨b', e1, ?_⟩
        rw [e2, fieldsText_cons, List.length_append]
        show _ + _ + _ = _
        omega
  rcases key with e | ⟨b', e1, e2⟩
  · rw [e]
  · rw [e1]
    simp only [TextBuf.add]
    rw [if_pos (show jsonCap < b'.used by rw [e2]; show 2048 < _; omega)]
    rfl

/-! ## The functions the generated ones call -/

/-- `strcat`, as the standard library has it, joins strings. -/
theorem c56_strcat {c : Ctx} {i : Nat} (h : ForeignIs c i (Std.strcat c.cmem)) : JoinsTexts c (.foreign i 2 true) := by
  intro w vs xs hf h2 ha
  obtain ⟨o, h', e, h3, h4, -⟩ := c38_strcat hf ha
  refine ⟨1, .str o, ⟨h', w.globals, w.trace ++ [(i, vs)]⟩, fun n hn => ?_, h3, h4⟩
  obtain ⟨n, rfl⟩ : ∃ j, n = j + 1 := ⟨n - 1, by omega⟩
  rw [call]
  simp only [h2, and_self, or_true, h.1, if_true, h.2, e, Res.bind_ok]

theorem writes_of {c : Ctx} {i : Nat} {F : List Value → Heap → Res (Value × Heap)} (h : ForeignIs c i F) {a : Heap} {v : Value} {x : List UInt8}
    (hF : ∀ h, (∀ o ∈ h.list, o < h.next) → ∃ r h', F [v] h = .ok (r, h') ∧ IsStr c.cmem h' r x ∧ Extends h h') : WritesAs c (.foreign i 0 true) a v x := by
  intro w hw
  obtain ⟨r, h', e, h3, h4⟩ := hF w.heap hw.fresh
  refine ⟨1, r, ⟨h', w.globals, w.trace ++ [(i, [v])]⟩, fun n hn => ?_, h3, h4⟩
  obtain ⟨n, rfl⟩ : ∃ j, n = j + 1 := ⟨n - 1, by omega⟩
  rw [call]
  simp only [Nat.zero_le, and_self, or_true, h.1, if_true, h.2, e, Res.bind_ok]

/-- `int_to_json`, `float_to_json`, `bool_to_json` (which are one function) write `null`, `true`, `false`, and numbers in
the format `%g`. -/
theorem c56_primitives {c : Ctx} {i : Nat} {lit : List UInt8 → Nat} {fmtG : BitVec 64 → List UInt8} {ofInt : BitVec 64 → BitVec 64}
    (h : ForeignIs c i (Std.primitiveToJson lit fmtG ofInt)) (hl : ∀ x ∈ [bytes "null", bytes "true", bytes "false"], c.cmem (lit x) = x ++ [0]) (a : Heap) :
    WritesAs c (.foreign i 0 true) a .null (bytes "null") ∧
    WritesAs c (.foreign i 0 true) a (.bool true) (bytes "true") ∧
    WritesAs c (.foreign i 0 true) a (.bool false) (bytes "false") ∧
    (∀ n, WritesAs c (.foreign i 0 true) a (.int n) (fmtG (ofInt n))) ∧
    (∀ f, WritesAs c (.foreign i 0 true) a (.float f) (fmtG f)) := by
  have lits : ∀ x ∈ [bytes "null", bytes "true", bytes "false"], ∀ h : Heap, IsStr c.cmem h (.cstr (lit x)) x := by
    intro x hx h
    show x = (c.cmem (lit x)).takeWhile (· ≠ 0)
    rw [hl x hx]
    simp only [List.mem_cons, List.not_mem_nil, or_false] at hx
    rcases hx with rfl | rfl | rfl <;> decide +kernel
  refine ⟨writes_of h fun w hw => ⟨_, _, rfl, lits (bytes "null") (by simp) _, extends_refl hw⟩, writes_of h fun w hw => ⟨_, _, rfl, lits (bytes "true") (by simp) _, extends_refl hw⟩,
    writes_of h fun w hw => ⟨_, _, rfl, lits (bytes "false") (by simp) _, extends_refl hw⟩, fun n => writes_of h fun w hw => ?_, fun f => writes_of h fun w hw => ?_⟩
  all_goals
    obtain ⟨h1, h2, h3, -⟩ := Extends.alloc hw (.str _)
    exact ⟨_, _, rfl, ⟨h2, h3⟩, h1⟩

/-- **C56, defect.** `str_to_json`, which the same function is, is undefined: it gives `Strcat` 48 arguments, of which there are
three (std.c:1015). So no struct which has a string in a field of type `str` can be written. -/
theorem c56_defect_str {c : Ctx} {i : Nat} {lit : List UInt8 → Nat} {fmtG : BitVec 64 → List UInt8} {ofInt : BitVec 64 → BitVec 64}
    (h : ForeignIs c i (Std.primitiveToJson lit fmtG ofInt)) {w : World} {v : Value} {x : List UInt8} (hv : IsStr c.cmem w.heap v x) (n : Nat) :
    call c (n + 1) (.foreign i 0 true) [v] w = .ub := by
  have e : Std.primitiveToJson lit fmtG ofInt [v] w.heap = .ub := by
    cases v with
    | str o => rfl
    | cstr p => rfl
    | _ => exact hv.elim
  rw [call]
  simp only [Nat.zero_le, and_self, or_true, h.1, if_true, h.2, e]
  rfl

/-! ## `use delegate("f") as g` -/

/-- The macro fails without a name for the function, or unless it is given exactly one name. -/
theorem c59_args {E : CompileEnv} {args : List Name} {a : Option Name} (h : args.length ≠ 1 ∨ a = none) (s : TState) :
    delegateMacro E args a s = .ok false s := by
  match args, a, h with
  | [], _, _ => rfl
  | [_], none, _ => rfl
  | [_], some _, h => simp at h
  | _ :: _ :: _, none, _ => rfl
  | _ :: _ :: _, some _, _ => rfl

/-- **C56, defect.** If there is no function of that name, a NULL pointer is read (std.c:1053). -/
theorem c59_defect_unknown {E : CompileEnv} {n a : Name} {s : TState} (h : NoFunction s.front n) :
    delegateMacro E [n] (some a) s = .ub := by
  have e : findFuncSymbol n s.front = none := no_find h
  unfold delegateMacro
  simp only [Act.bind_apply, act_get_ok, e]
  rfl

end Tiny
