import Verif.Proofs.JsonCompile
import Mathlib.Logic.Relation

/-!
# The macro `json`: the functions for the types of the fields, and for the struct
-/

namespace Tiny
open Spec

theorem intercalate_text : ∀ fs : List (Name × Name), List.intercalate (bytes ", \",\",\n\t\t") (fs.map fun p =>
      bytes "\"\\\"" ++ p.1 ++ bytes "\\\":\", " ++ p.2 ++ bytes "_to_json(v." ++ p.1 ++ bytes ")") = jsonFieldsText fs
  | [] => rfl
  | [p] => by
    simp only [List.map_cons, List.map_nil, List.intercalate_singleton, jsonFieldsText, jsonField]
    rfl
  | p :: q :: ps => by
    have := intercalate_text (q :: ps)
    rw [List.map_cons] at this
    rw [List.map_cons, List.map_cons, List.intercalate_cons_cons, this]
    rfl

theorem json_source (t : Name) (fs : List (Name × Name)) : jsonSource t fs = jsonText t fs := by
  unfold jsonSource
  rw [intercalate_text]
  rfl

/-- A struct, for which a function has been compiled. -/
abbrev JStruct := Name × List (Name × Tag)

def JStruct.tree (u : JStruct) : SStmt := jsonFunc u.1 (namedFields u.2)

/-- The symbol of the function. -/
def IsJsonSym (n : Name) : Sym → Prop
  | .func fi => fi.name = jsonFn n ∧ (∃ v, fi.args = [v] ∧ v.tag = some (.named n)) ∧ fi.ret = some .str
  | _ => False

/-- What the macro has compiled so far, from the table `f0` on. -/
structure JExt (f0 : Front) (us : List JStruct) (s : TState) : Prop where
  tables : Tables s.front
  cur : s.front.currFunc = .none
  nest : s.nest < maxNest
  room : Room (JsonLiteral f0) f0.strings s.front.strings
  syms : ∃ js, s.front.syms = f0.syms ++ js ∧ List.Forall₂ (fun (u : JStruct) x => IsJsonSym u.1 x) us js
  structs : ∀ u ∈ us, f0.syms.find? (IsTypeNamed u.1) = some (.struct u.1 true u.2) ∧ NoFunction f0 (jsonFn u.1)
  nodup : (us.map Prod.fst).Nodup

theorem jsonFn_inj {a b : Name} (h : jsonFn a = jsonFn b) : a = b := List.append_cancel_right h

theorem IsJsonSym.isFunc {n m : Name} {x : Sym} (h : IsJsonSym n x) : x.isFunc m = true ↔ m = jsonFn n := by
  cases x with
  | func fi =>
    obtain ⟨h, -⟩ := h
    rw [Sym.isFunc, h, beq_iff_eq]
    exact eq_comm
  | _ => exact h.elim

theorem IsJsonSym.takes {n : Name} {x : Sym} (h : IsJsonSym n x) : TakesOne (.named n) x := by
  cases x with
  | func fi =>
    obtain ⟨-, ⟨v, h1, h2⟩, -⟩ := h
    exact ⟨v, _, h1, h2, (c36_assignable _ _).1 (by simp [isTagAssignableTo])⟩
  | _ => exact h.elim

theorem find_json {us : List JStruct} {js : List Sym} (h : List.Forall₂ (fun (u : JStruct) x => IsJsonSym u.1 x) us js) (n : Name) :
    (n ∉ us.map Prod.fst ∧ js.find? (·.isFunc (jsonFn n)) = none) ∨
    (n ∈ us.map Prod.fst ∧ ∃ x, js.find? (·.isFunc (jsonFn n)) = some x ∧ IsJsonSym n x) := by
  induction h with
  | nil => exact .inl ⟨by simp, rfl⟩
  | cons hx _ ih =>
    rename_i u x us js _
    rw [List.find?_cons]
    by_cases e : n = u.1
    · refine .inr ⟨by simp [e], x, ?_, e ▸ hx⟩
      rw [hx.isFunc.2 (by rw [e])]
    · have : x.isFunc (jsonFn n) = false := by
        rw [← Bool.not_eq_true, hx.isFunc]
        exact fun h => e (jsonFn_inj h)
      rw [this]
      rcases ih with ⟨h1, h2⟩ | ⟨h1, h2⟩
      · exact .inl ⟨by simp only [List.map_cons, List.mem_cons, not_or]; exact ⟨e, h1⟩, h2⟩
      · exact .inr ⟨by simp only [List.map_cons, List.mem_cons]; exact .inr h1, h2⟩

/-- There is a function for the type. -/
def HasJson (f : Front) (t : Tag) : Prop := ∃ x, referenceFunction f.syms (jsonFn t.name) = some x ∧ TakesOne t x

theorem HasJson.more {f g : Front} {t : Tag} (h : HasJson f t) {xs : List Sym} (e : g.syms = f.syms ++ xs) : HasJson g t := by
  obtain ⟨x, h1, h2⟩ := h
  refine ⟨x, ?_, h2⟩
  unfold referenceFunction at h1 ⊢
  rw [e, List.find?_append, h1]
  rfl

/-- If there is a function, nothing is done. -/
theorem bindJson_has {E : CompileEnv} {k : Nat} {t : Tag} {s : TState} (h : (findFuncSymbol (jsonFn t.name) s.front).isSome = true)
    (hl : (jsonFn t.name).length < 2048) : bindJson E (k + 1) t s = .ok true s := by
  have hn : (t.name ++ nameOf "_to_json").take (jsonCap - 1) = jsonFn t.name :=
    List.take_of_length_le (by show (jsonFn t.name).length ≤ 2047; omega)
  rw [bindJson]
  simp only [Act.bind_apply, act_get_ok, hn, h, if_true]
  cases tagFields s.front t <;> rfl

theorem compiles_append {E : CompileEnv} {file : Name} {xs ys : List SStmt} {s s1 s2 : TState} (h1 : Compiles E file xs s s1)
    (h2 : Compiles E file ys s1 s2) : Compiles E file (xs ++ ys) s s2 := by
  induction h1 with
  | nil => exact h2
  | cons a b c _ ih => exact .cons a b c (ih h2)

theorem named_len {fs : List (Name × Tag)} {n : Name} {p : Name × Tag} (h : p ∈ fs) (hl : (jsonSource n (namedFields fs)).length < 2048) :
    (jsonFn p.2.name).length < 2048 := by
  have h1 : (jsonField p.1 p.2.name).length ≤ (jsonFieldsText (fieldNames fs)).length := by
    have : ∀ (q : Name × Tag) (fs : List (Name × Tag)), p ∈ q :: fs → (jsonField p.1 p.2.name).length ≤ (jsonFieldsText (fieldNames (q :: fs))).length := by
      intro q fs h
      rw [fieldsText_cons, List.length_append]
      rcases List.mem_cons.1 h with rfl | h
      · omega
      · have : (jsonField p.1 p.2.name).length ≤ (laterText fs).length := by
          unfold laterText
          rw [List.length_flatMap]
          have := List.single_le_sum (l := fs.map fun p => (jsonSep ++ jsonField p.1 p.2.name).length) (by simp) _ (List.mem_map.2 ⟨p, h, rfl⟩)
          rw [List.length_append] at this
          omega
        omega
    cases fs with
    | nil => cases h
    | cons q fs => exact this q fs h
  have e1 : (nameOf "_to_json(v.").length = 11 := by decide +kernel
  have e2 : (nameOf "_to_json").length = 8 := by decide +kernel
  have h2 : (jsonFn p.2.name).length = p.2.name.length + 8 := by
    show (p.2.name ++ nameOf "_to_json").length = _
    rw [List.length_append, e2]
  have h3 : p.2.name.length + 11 ≤ (jsonField p.1 p.2.name).length := by
    simp only [jsonField, List.length_append, e1]
    omega
  rw [json_source] at hl
  change (jsonHead n ++ jsonFieldsText (fieldNames fs) ++ jsonTail).length < 2048 at hl
  simp only [List.length_append] at hl
  omega

theorem own_len {fs : List (Name × Tag)} {n : Name} (hl : (jsonSource n (namedFields fs)).length < 2048) : (jsonFn n).length < 2048 := by
  rw [json_source] at hl
  change (nameOf "func " ++ n ++ nameOf "_to_json(v: " ++ n ++ nameOf "): str {\n\treturn strcat(\"{\",\n\t\t" ++ jsonFieldsText _ ++ jsonTail).length < 2048 at hl
  have e1 : (nameOf "_to_json(v: ").length = 12 := by decide +kernel
  have e2 : (nameOf "_to_json").length = 8 := by decide +kernel
  show (n ++ nameOf "_to_json").length < _
  simp only [List.length_append, e1] at hl
  rw [List.length_append, e2]
  omega


/-- A field of the struct `n`, for which there is no function, is of type `m`. -/
def FieldOf (f : Front) (m n : Name) : Prop :=
  NoFunction f (jsonFn n) ∧ ∃ fs, f.syms.find? (IsTypeNamed n) = some (.struct n true fs) ∧ ∃ p ∈ fs, p.2 = .named m

/-- `m` is `n`, or the type of a field of a field ... of `n`. -/
def Below (f : Front) (m n : Name) : Prop := m = n ∨ Relation.TransGen (FieldOf f) m n

theorem acc_trans {α : Type} {r : α → α → Prop} {a : α} (h : Acc r a) : ¬ Relation.TransGen r a a := by
  induction h with
  | intro a _ ih =>
    intro h
    rcases Relation.TransGen.tail'_iff.1 h with ⟨b, h1, h2⟩
    exact ih b h2 (Relation.TransGen.head' h2 h1)

theorem writable_acc {f : Front} {t : Tag} (h : Writable f t) : ∀ n, t = .named n → Acc (FieldOf f) n := by
  induction h with
  | @known t x h1 h2 =>
    intro n e
    subst e
    refine ⟨_, fun m hm => ?_⟩
    have := hm.1 x (List.mem_of_find?_eq_some h1)
    rw [show IsFuncNamed (jsonFn n) x = true from List.find?_some h1] at this
    cases this
  | @struct n fs h1 h2 h3 h4 h5 h6 h7 h8 h9 ih =>
    intro n' e
    cases e
    refine ⟨_, fun m hm => ?_⟩
    obtain ⟨-, fs', e1, p, hp, e2⟩ := hm
    rw [h1] at e1
    cases e1
    exact ih p hp m e2

/-- The units compiled for these structs. -/
def JUnits (s s' : TState) (vs : List JStruct) (ps : List (Front × List Stmt)) : Prop :=
  Session s s' ps ∧ List.Forall₂ JsonUnit vs ps ∧ (∀ p ∈ ps, PrefixTo p.1 s'.front) ∧ PrefixTo s.front s'.front

theorem session_trans {s0 s1 s2 : TState} {ps qs : List (Front × List Stmt)} (h1 : Session s0 s1 ps) (h2 : Session s1 s2 qs) :
    Session s0 s2 (ps ++ qs) := by
  induction h2 with
  | start => simpa using h1
  | call _ h ih => exact .call (ih h1) h
  | compile _ a b c d e f ih _ =>
    have := Session.compile (ih h1) a b c d e f
    simpa [List.append_assoc] using this
  | fail _ a b c d ih => exact .fail (ih h1) a b c d

theorem JUnits.nil (s : TState) : JUnits s s [] [] := ⟨.start, .nil, by simp, List.prefix_refl _, List.prefix_refl _⟩

theorem JUnits.trans {s0 s1 s2 : TState} {vs us : List JStruct} {ps qs : List (Front × List Stmt)} (h1 : JUnits s0 s1 vs ps) (h2 : JUnits s1 s2 us qs) :
    JUnits s0 s2 (vs ++ us) (ps ++ qs) := by
  refine ⟨session_trans h1.1 h2.1, List.rel_append h1.2.1 h2.2.1, ?_, h1.2.2.2.trans h2.2.2.2⟩
  intro p hp
  rcases List.mem_append.1 hp with hp | hp
  · exact (h1.2.2.1 p hp).trans h2.2.2.2
  · exact h2.2.2.1 p hp

/-- What a call of `BindJsonSerializerForType` does. -/
def BindsTo (E : CompileEnv) (f0 : Front) (t : Tag) : Prop :=
  ∀ (us : List JStruct) (s : TState), JExt f0 us s → ∃ K N vs s', (∀ k, K ≤ k → ∀ m, N ≤ m → bindJson { E with fuel := m } k t s = .ok true s' ∧
    Compiles { E with fuel := m } (bytes "(json mod)") (vs.map JStruct.tree) s s') ∧ JExt f0 (us ++ vs) s' ∧ HasJson s'.front t ∧
    (∀ v ∈ vs, ∃ n, t = .named n ∧ Below f0 v.1 n) ∧
    (∃ xs, s'.front.syms = s.front.syms ++ xs) ∧ s'.nest = s.nest ∧ ∃ ps, JUnits s s' vs ps

theorem bind_each {E : CompileEnv} {f0 : Front} : ∀ (fs : List (Name × Tag)), (∀ p ∈ fs, BindsTo E f0 p.2) → ∀ (us : List JStruct) (s : TState), JExt f0 us s →
    ∃ K N vs s', (∀ k, K ≤ k → ∀ m, N ≤ m → bindEach (bindJson { E with fuel := m } k) fs s = .ok () s' ∧
      Compiles { E with fuel := m } (bytes "(json mod)") (vs.map JStruct.tree) s s') ∧ JExt f0 (us ++ vs) s' ∧ (∀ p ∈ fs, HasJson s'.front p.2) ∧
      (∀ v ∈ vs, ∃ p ∈ fs, ∃ n, p.2 = .named n ∧ Below f0 v.1 n) ∧
      (∃ xs, s'.front.syms = s.front.syms ++ xs) ∧ s'.nest = s.nest ∧ ∃ ps, JUnits s s' vs ps
  | [], _, us, s, h => ⟨0, 0, [], s, fun _ _ _ _ => ⟨rfl, .nil⟩, by simpa using h, by simp, by simp, ⟨[], by simp⟩, rfl, [], .nil s⟩
  | p :: fs, hb, us, s, h => by
    obtain ⟨K1, N1, vs1, s1, a1, a2, a3, a6, ⟨xs1, a4⟩, a5, ps1, a7⟩ := hb p (by simp) us s h
    obtain ⟨K2, N2, vs2, s2, b1, b2, b3, b6, ⟨xs2, b4⟩, b5, ps2, b7⟩ := bind_each fs (fun q hq => hb q (List.mem_cons_of_mem _ hq)) (us ++ vs1) s1 a2
    refine ⟨max K1 K2, max N1 N2, vs1 ++ vs2, s2, fun k hk m hm => ⟨?_, ?_⟩, by simpa using b2, ?_, ?_, ⟨xs1 ++ xs2, by rw [b4, a4]; simp⟩, by rw [b5, a5], ps1 ++ ps2, a7.trans b7⟩
    · rw [bindEach, Act.bind_apply, (a1 k (by omega) m (by omega)).1]
      exact (b1 k (by omega) m (by omega)).1
    · rw [List.map_append]
      exact compiles_append (a1 k (by omega) m (by omega)).2 (b1 k (by omega) m (by omega)).2
    · intro q hq
      rcases List.mem_cons.1 hq with rfl | hq
      · exact a3.more b4
      · exact b3 q hq
    · intro v hv
      rcases List.mem_append.1 hv with hv | hv
      · exact ⟨p, by simp, a6 v hv⟩
      · obtain ⟨q, hq, h⟩ := b6 v hv
        exact ⟨q, List.mem_cons_of_mem _ hq, h⟩

theorem named_find {f : Front} {n : Name} {x : Sym} (h : f.syms.find? (IsFuncNamed n) = some x) : referenceFunction f.syms n = some x := by
  unfold referenceFunction
  rw [isFunc_named]
  exact h

theorem no_find {f : Front} {n : Name} (h : NoFunction f n) : f.syms.find? (·.isFunc n) = none := by
  rw [isFunc_named, List.find?_eq_none]
  intro x hx
  rw [h x hx]
  decide

theorem binds {E : CompileEnv} {f0 : Front} (hs : HasStrcat f0) (hm : ¬ TooMany f0 (JsonLiteral f0)) {t : Tag} (h : Writable f0 t) :
    (jsonFn t.name).length < 2048 → BindsTo E f0 t := by
  induction h with
  | @known t x h1 h2 =>
    intro hl us s he
    have hh : HasJson s.front t := by
      obtain ⟨js, e, -⟩ := he.syms
      exact HasJson.more (f := f0) ⟨x, named_find h1, h2⟩ e
    refine ⟨1, 0, [], s, fun k hk m _ => ⟨?_, .nil⟩, by simpa using he, hh, by simp, ⟨[], by simp⟩, rfl, [], .nil s⟩
    obtain ⟨k, rfl⟩ : ∃ j, k = j + 1 := ⟨k - 1, by omega⟩
    obtain ⟨y, h3, -⟩ := hh
    exact bindJson_has (by unfold findFuncSymbol; rw [h3]; rfl) hl
  | @struct n fs h1 h2 h3 h4 h5 h6 h7 h8 h9 ih =>
    intro hl us s he
    obtain ⟨js, e, hj⟩ := he.syms
    rcases find_json hj n with ⟨g1, g2⟩ | ⟨g1, x, g2, g3⟩
    · -- there is none
      have hno : referenceFunction s.front.syms (jsonFn n) = none := by
        unfold referenceFunction
        rw [e, List.find?_append, no_find h3, g2]
        rfl
      have htype : ∀ {g : Front} {xs : List Sym}, g.syms = f0.syms ++ xs → g.syms.find? (fun x => (x.asType n).isSome) = some (.struct n true fs) := by
        intro g xs e
        rw [type_named, e, List.find?_append, h1]
        rfl
      have htf : tagFields s.front (.named n) = some fs := by
        unfold tagFields
        simp only [htype e]
      obtain ⟨K, N, vs, s1, a1, a2, a3, a6, ⟨xs1, a4⟩, a5, ps1, a7⟩ := bind_each fs (fun p hp => ih p hp (named_len hp h8)) us s he
      obtain ⟨js1, e1, hj1⟩ := a2.syms
      have hacc := writable_acc (.struct h1 h2 h3 h4 h5 h6 h7 h8 h9) n rfl
      have hbelow : ∀ v ∈ vs, Relation.TransGen (FieldOf f0) v.1 n := by
        intro v hv
        obtain ⟨p, hp, m, e2, hb⟩ := a6 v hv
        have h : FieldOf f0 m n := ⟨h3, fs, h1, p, hp, e2⟩
        rcases hb with hb | hb
        · exact hb ▸ .single h
        · exact hb.tail h
      have hnew : n ∉ (us ++ vs).map Prod.fst := by
        rw [List.map_append, List.mem_append, not_or]
        refine ⟨g1, fun hv => ?_⟩
        obtain ⟨v, hv, e3⟩ := List.mem_map.1 hv
        exact acc_trans hacc (e3 ▸ hbelow v hv)
      have hno1 : referenceFunction s1.front.syms (jsonFn n) = none := by
        rcases find_json hj1 n with ⟨-, k2⟩ | ⟨k1, -⟩
        · unfold referenceFunction
          rw [e1, List.find?_append, no_find h3, k2]
          rfl
        · exact absurd k1 hnew
      have htab : TableFor s1.front n fs := by
        refine ⟨htype e1, ?_⟩
        obtain ⟨i, hi⟩ := hs
        refine ⟨i, ?_⟩
        unfold referenceFunction
        rw [isFunc_named, e1, List.find?_append, hi]
        rfl
      have hl2 : (jsonText n (fieldNames fs)).length < 2048 := by
        rw [← json_source]
        exact h8
      obtain ⟨N2, s2, σ, us2, nx, rest, c1, c2, c3, c4, c5, c6, c7, p, d1, d2, d3, d4⟩ := compile_json (E := E) hm a2.tables a2.cur a2.nest a2.room htab (prim_none.2 h2) h4 h5 h6 h7 hl2 hno1
        (fun x hx => .inl hx) (fun p hp => .inr ⟨n, fs, p, List.mem_of_find?_eq_some h1, hp, rfl⟩) a3
      let fi := lineFunc s1.front (jsonFn n) [(bytes "v", .named n)] .str
      have hfi : IsJsonSym n (.func fi) := ⟨rfl, ⟨_, rfl, rfl⟩, rfl⟩
      have e2 : s2.front.syms = f0.syms ++ (js1 ++ [.func fi]) := by
        rw [c4]
        show s1.front.syms ++ _ = _
        rw [e1, List.append_assoc]
      refine ⟨K + 1, max N N2, vs ++ [(n, fs)], s2, fun k hk m hm => ⟨?_, ?_⟩, ?_, ⟨.func fi, ?_, hfi.takes⟩, ?_, ⟨xs1 ++ [.func fi], ?_⟩, by rw [c6, a5], ps1 ++ [p],
        a7.trans ⟨d1, .cons d2 .nil, by simpa using d3, d4⟩⟩
      · obtain ⟨k, rfl⟩ : ∃ j, k = j + 1 := ⟨k - 1, by omega⟩
        rw [bindJson_text htf hno hl2, Act.bind_apply, (a1 k (by omega) m (by omega)).1]
        exact c3 m (by omega)
      · rw [List.map_append]
        refine compiles_append (a1 K (Nat.le_refl _) m (by omega)).2 (.cons c1 c2 (c3 m (by omega)) .nil)
      · refine ⟨c7, ?_, by rw [c6]; exact a2.nest, ?_, ⟨_, e2, ?_⟩, ?_, ?_⟩
        · rw [c4]
          exact a2.cur
        · rw [c4]
          exact c5
        · rw [← List.append_assoc]
          exact List.rel_append hj1 (.cons hfi .nil)
        · intro v hv
          rw [← List.append_assoc, List.mem_append, List.mem_singleton] at hv
          rcases hv with hv | rfl
          · exact a2.structs v hv
          · exact ⟨h1, h3⟩
        · rw [← List.append_assoc, List.map_append]
          refine List.nodup_append.2 ⟨a2.nodup, by simp, ?_⟩
          intro a ha b hb e
          simp only [List.map_cons, List.map_nil, List.mem_singleton] at hb
          exact hnew (hb ▸ e ▸ ha)
      · rw [show (Tag.named n).name = n from rfl]
        unfold referenceFunction at hno1 ⊢
        rw [e2, ← List.append_assoc, ← e1, List.find?_append, hno1, Option.none_or, List.find?_cons, hfi.isFunc.2 rfl]
      · intro v hv
        refine ⟨n, rfl, ?_⟩
        rcases List.mem_append.1 hv with hv | hv
        · exact .inr (hbelow v hv)
        · rw [List.mem_singleton] at hv
          exact .inl (by rw [hv])
      · rw [c4]
        show s1.front.syms ++ _ = _
        rw [a4, List.append_assoc]
    · have hh : HasJson s.front (.named n) := by
        refine ⟨x, ?_, g3.takes⟩
        rw [show (Tag.named n).name = n from rfl]
        unfold referenceFunction
        rw [e, List.find?_append, no_find h3]
        exact g2
      refine ⟨1, 0, [], s, fun k hk m _ => ⟨?_, .nil⟩, by simpa using he, hh, by simp, ⟨[], by simp⟩, rfl, [], .nil s⟩
      obtain ⟨k, rfl⟩ : ∃ j, k = j + 1 := ⟨k - 1, by omega⟩
      obtain ⟨y, h3, -⟩ := hh
      exact bindJson_has (by unfold findFuncSymbol; rw [h3]; rfl) hl

end Tiny
