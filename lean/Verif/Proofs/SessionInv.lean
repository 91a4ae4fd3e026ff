import Verif.Proofs.Session

/-!
# The invariant of a session
-/

namespace Tiny
open Spec

/-! ## The functions of a tree -/

theorem resolved_procs {s : CStmt} {s' : Stmt} {f : Front} (h : ResolvedS f s s') :
    (∀ j ∈ procPos s, ∃ fi fn, f.syms[j]? = some (.func fi) ∧ (fi.index, fn) ∈ procs s') ∧
    (∀ i fn, (i, fn) ∈ procs s' → ∃ j ∈ procPos s, ∃ fi, f.syms[j]? = some (.func fi) ∧ fi.index = i ∧
      fn.nargs = fi.args.length ∧ fn.nlocals = fi.locals.length) := by
  induction h with
  | node _ ih => simpa only [procPos, procs] using ih
  | cons _ _ ih1 ih2 =>
    simp only [procPos, procs, procPosL, procsL, List.mem_append] at ih1 ih2 ⊢
    constructor
    · rintro j (hj | hj)
      · obtain ⟨fi, fn, h1, h2⟩ := ih1.1 j hj
        exact ⟨fi, fn, h1, .inl h2⟩
      · obtain ⟨fi, fn, h1, h2⟩ := ih2.1 j hj
        exact ⟨fi, fn, h1, .inr h2⟩
    · rintro i fn (hj | hj)
      · obtain ⟨j, h1, h2⟩ := ih1.2 i fn hj
        exact ⟨j, .inl h1, h2⟩
      · obtain ⟨j, h1, h2⟩ := ih2.2 i fn hj
        exact ⟨j, .inr h1, h2⟩
  | proc h1 _ ih =>
    simp only [procPos, procs, List.mem_cons] at ih ⊢
    constructor
    · rintro j (rfl | hj)
      · exact ⟨_, _, h1, .inl rfl⟩
      · obtain ⟨fi, fn, h1, h2⟩ := ih.1 j hj
        exact ⟨fi, fn, h1, .inr h2⟩
    · rintro i fn (hj | hj)
      · cases hj
        exact ⟨_, .inl rfl, _, h1, rfl, rfl, rfl⟩
      · obtain ⟨j, h1, h2⟩ := ih.2 i fn hj
        exact ⟨j, .inr h1, h2⟩
  | ifThen _ _ ih => simpa only [procPos, procs] using ih
  | «while» _ _ ih => simpa only [procPos, procs] using ih
  | ifElse _ _ _ ih1 ih2 =>
    simp only [procPos, procs, List.mem_append] at ih1 ih2 ⊢
    constructor
    · rintro j (hj | hj)
      · obtain ⟨fi, fn, h1, h2⟩ := ih1.1 j hj
        exact ⟨fi, fn, h1, .inl h2⟩
      · obtain ⟨fi, fn, h1, h2⟩ := ih2.1 j hj
        exact ⟨fi, fn, h1, .inr h2⟩
    · rintro i fn (hj | hj)
      · obtain ⟨j, h1, h2⟩ := ih1.2 i fn hj
        exact ⟨j, .inl h1, h2⟩
      · obtain ⟨j, h1, h2⟩ := ih2.2 i fn hj
        exact ⟨j, .inr h1, h2⟩
  | «for» _ _ _ _ ih1 ih2 ih3 =>
    simp only [procPos, procs, List.mem_append] at ih1 ih2 ih3 ⊢
    constructor
    · rintro j (hj | hj | hj)
      · obtain ⟨fi, fn, h1, h2⟩ := ih1.1 j hj
        exact ⟨fi, fn, h1, .inl (.inl h2)⟩
      · obtain ⟨fi, fn, h1, h2⟩ := ih2.1 j hj
        exact ⟨fi, fn, h1, .inr h2⟩
      · obtain ⟨fi, fn, h1, h2⟩ := ih3.1 j hj
        exact ⟨fi, fn, h1, .inl (.inr h2)⟩
    · rintro i fn ((hj | hj) | hj)
      · obtain ⟨j, h1, h2⟩ := ih1.2 i fn hj
        exact ⟨j, .inl h1, h2⟩
      · obtain ⟨j, h1, h2⟩ := ih3.2 i fn hj
        exact ⟨j, .inr (.inr h1), h2⟩
      · obtain ⟨j, h1, h2⟩ := ih2.2 i fn hj
        exact ⟨j, .inr (.inl h1), h2⟩
  | _ => simp [procPos, procs, procPosL, procsL]

/-! ## The invariant -/

/-- What is true between the calls of a host. `pend` are the places of the functions which were parsed but not yet
compiled: macros run at such a time. -/
structure Inv (s : TState) (ps : List (Front × List Stmt)) (pend : List Nat) : Prop where
  tables : Tables s.front
  cur : s.front.currFunc = .none
  built : s.program.length ≤ 2 ^ 32 → Built (globalsOf s.front) ⟨s.program, s.lines, none, s.functionPcs⟩ (program ps)
  halt : ps ≠ [] → s.program.getLast? = some Op.halt.toByte
  nodup : (idsL (program ps)).Nodup
  procs : ∀ i fn, (i, fn) ∈ procsL (program ps) → ∃ j fi, s.front.syms[j]? = some (.func fi) ∧ fi.index = i ∧ j ∉ pend ∧
    fn.nargs = fi.args.length ∧ fn.nlocals = fi.locals.length
  cover : ∀ (j : Nat) fi, s.front.syms[j]? = some (.func fi) → j ∈ pend ∨ ∃ fn, (fi.index, fn) ∈ procsL (program ps)
  pendLt : ∀ j ∈ pend, j < s.front.syms.length
  pieces : ∀ p ∈ ps, TyMore (baseEnv p.1) (baseEnv s.front) ∧ Tables p.1 ∧ Checked (baseEnv p.1) none (.block p.2)
  bound : ∀ p ∈ ps, ∀ n i ts va r, Sym.foreign n i ts va r ∈ p.1.syms →
    Sym.foreign n i ts va r ∈ s.front.syms ∧ s.foreignFns[i]? = some (some n)

theorem built_more {G G' : Globals} {s s' : CS} {ss : List Stmt} (h : Built G s ss) (hg : GlobalsLe G G')
    (h1 : s'.program = s.program) (h2 : s'.functionPcs = s.functionPcs) : Built G' s' ss := by
  obtain ⟨⟨as, h3⟩, h4⟩ := h
  refine ⟨⟨as, fun fp hfp => ?_⟩, by rw [h1]; exact h4⟩
  rw [h1]
  rw [h2] at hfp
  exact (h3 fp hfp).globals hg

theorem le_func {f f' : Front} (h : FrontLe f f') {j : Nat} {fi : FuncInfo} (hj : f.syms[j]? = some (.func fi)) :
    ∃ fi', f'.syms[j]? = some (.func fi') ∧ fi'.index = fi.index ∧ fi'.args.length = fi.args.length ∧
      fi'.locals.length = fi.locals.length := by
  obtain ⟨y, h1, k⟩ := h j _ hj
  obtain ⟨fi', rfl, -, h2, -, -, -, h3, h4⟩ := kept_func' k
  exact ⟨fi', h1, h2, h3, h4⟩

theorem le_foreign {f f' : Front} (h : FrontLe f f') {n : Name} {i : Nat} {ts : List Tag} {va : Bool} {r : Tag}
    (hm : Sym.foreign n i ts va r ∈ f.syms) : Sym.foreign n i ts va r ∈ f'.syms := by
  obtain ⟨j, hj⟩ := List.getElem?_of_mem hm
  obtain ⟨y, h1, k⟩ := h j _ hj
  have : y = .foreign n i ts va r := by
    rcases kept_kind k with ⟨v, v', e, rfl⟩ | ⟨f, f', e, rfl⟩ | ⟨m, d, fs, d', fs', e, rfl, -⟩ | ⟨m, fs, e, rfl⟩ | rfl
    · cases e
    · cases e
    · cases e
    · cases e
    · rfl
  subst this
  exact List.mem_of_getElem? h1

/-- The symbol table has changed, not the code. -/
theorem Inv.step {s s' : TState} {ps : List (Front × List Stmt)} {pend new : List Nat} (h : Inv s ps pend)
    (hf : FrontLe s.front s'.front) (hT : Tables s'.front) (hc : s'.front.currFunc = .none)
    (hn : ∀ j, HasFn s'.front j → HasFn s.front j ∨ j ∈ new)
    (hl : ∀ j ∈ new, s.front.syms.length ≤ j ∧ j < s'.front.syms.length)
    (h1 : s'.program = s.program) (h2 : s'.functionPcs = s.functionPcs) (h3 : s'.foreignFns = s.foreignFns) :
    Inv s' ps (pend ++ new) where
  tables := hT
  cur := hc
  built := fun hz => by
    rw [h1] at hz
    exact built_more (h.built hz) (globals_le hf) h1 h2
  halt := by rw [h1]; exact h.halt
  nodup := h.nodup
  procs := fun i fn hm => by
    obtain ⟨j, fi, a, b, c, d, e⟩ := h.procs i fn hm
    obtain ⟨fi', a', b', d', e'⟩ := le_func hf a
    refine ⟨j, fi', a', b'.trans b, ?_, d.trans d'.symm, e.trans e'.symm⟩
    rw [List.mem_append]
    rintro (hj | hj)
    · exact c hj
    · have := (hl j hj).1
      have := (List.getElem?_eq_some_iff.1 a).1
      omega
  cover := fun j fi hj => by
    rcases hn j ⟨fi, hj⟩ with ⟨fi0, h0⟩ | hm
    · obtain ⟨fi', a, b, -⟩ := le_func hf h0
      rw [hj] at a
      cases a
      rcases h.cover j fi0 h0 with hp | hp
      · exact .inl (by simp [hp])
      · exact .inr (by rw [b]; exact hp)
    · exact .inl (by simp [hm])
  pendLt := fun j hj => by
    rcases List.mem_append.1 hj with hj | hj
    · have h1 := h.pendLt j hj
      obtain ⟨y, h2, -⟩ := hf j s.front.syms[j] (by simp [h1])
      exact (List.getElem?_eq_some_iff.1 h2).1
    · exact (hl j hj).2
  pieces := fun p hp => ⟨(h.pieces p hp).1.trans (baseEnv_le hf), (h.pieces p hp).2⟩
  bound := fun p hp n i ts va r hm => by
    obtain ⟨a, b⟩ := h.bound p hp n i ts va r hm
    exact ⟨le_foreign hf a, by rw [h3]; exact b⟩

theorem keeps_le {f f' : Front} (h : Keeps f f') : FrontLe f f' := by
  intro i x hx
  obtain ⟨y, h1, k⟩ := h.syms i x hx
  refine ⟨y, h1, ?_⟩
  cases k with
  | same => exact .same _
  | filled => exact .kept (.filled ..)

/-- After parsing. -/
theorem Inv.parsed {s : TState} {ps : List (Front × List Stmt)} {pend : List Nat} (h : Inv s ps pend) {n : Nat} {ts : List Tk}
    {xs : List CStmt} {q : PS Front} (ht : Tail3 ts) (hp : parseProgram n ⟨ts, s.front⟩ = .ok xs q) (m : Nat) :
    Inv { s with nest := m, front := q.st } ps (pend ++ procPosL xs) := by
  have k := parse_parsed ht h.tables h.cur hp
  refine h.step (keeps_le k.keeps) k.tables k.cur ?_ k.procs.2.2 rfl rfl rfl
  obtain ⟨ss, us, nx, rest, s', h1, rfl, h3, h4⟩ := c45_program_sound frontOps hp
  exact named_covers h4

theorem Inv.called {s : TState} {ps : List (Front × List Stmt)} {pend : List Nat} (h : Inv s ps pend) {f : Front}
    (hk : HostCall s.front f) : Inv { s with front := f } ps pend := by
  have k := hostCall_keeps hk
  have := h.step (s' := { s with front := f }) (new := []) k.le (k.tables h.tables) (k.cur.trans h.cur) (fun j hj => .inl ?_)
    (by simp) rfl rfl rfl
  · simpa using this
  · obtain ⟨fi, hj⟩ := hj
    exact ⟨fi, k.funcs j fi hj⟩

theorem Inv.failed {s s' : TState} {ps : List (Front × List Stmt)} {pend : List Nat} (h : Inv s ps pend) {E : CompileEnv}
    {file : Option Name} {ts : List Tk} (ht : Tail3 ts)
    (hx : ∀ xs q, parseProgram E.fuel ⟨ts, s.front⟩ = .ok xs q → NoUse xs ∧ ∀ ss f, resolveSs xs q.st ≠ .ok ss f)
    (hc : compileTokens E file ts s = .ok false s') (hcur : s'.front.currFunc = .none) : Inv s' ps pend := by
  obtain ⟨e1, e2, e3, -⟩ := c32_exact hc hx
  rw [compile_noUse fun xs q e => (hx xs q e).1] at hc
  obtain ⟨a, -, c, -, d⟩ := compile_cases (quiet_keeps E) ht h.tables h.cur hc
  have := h.step (s' := s') (new := []) a.syms c hcur (fun j hj => .inl ?_) (by simp) e1 e2 e3
  · simpa using this
  · obtain ⟨fi, hj⟩ := hj
    have hlt : j < s.front.syms.length := by
      have := (d rfl).1
      have := (List.getElem?_eq_some_iff.1 hj).1
      omega
    obtain ⟨y, h1, k⟩ := a.syms j s.front.syms[j] (by simp [hlt])
    rw [hj] at h1
    cases h1
    rcases kept_kind k with ⟨v, v', e, e'⟩ | ⟨f, f', e, e'⟩ | ⟨m, d, fs, d', fs', e, e', -⟩ | ⟨m, fs, e, e'⟩ | e
    · cases e'
    · exact ⟨f, by rw [List.getElem?_eq_getElem hlt, e]⟩
    · cases e'
    · cases e'
    · exact ⟨fi, by rw [List.getElem?_eq_getElem hlt, ← e]⟩

/-! ## A source -/

theorem like_globals {f f' : Front} (h : Like f f') : globalsOf f' = globalsOf f := by
  have e : ∀ f : Front, globalsOf f = globalsOf f.bare := by
    intro f
    unfold globalsOf Front.bare referenceFunction
    simp only [List.findSome?_map, List.find?_map]
    congr 1
    · funext n
      have : (fun x : Sym => x.structInfo n) = (fun x => x.structInfo n) ∘ Sym.bare := by
        funext x; cases x <;> rfl
      rw [← this]
    · funext n
      have : (fun x : Sym => x.isFunc n) = (fun x => x.isFunc n) ∘ Sym.bare := by
        funext x; cases x <;> rfl
      rw [← this]
      cases f.syms.find? (fun x => x.isFunc n) with
      | none => rfl
      | some x => cases x <;> rfl
  rw [e f', e f, h]

theorem like_foreign {f f' : Front} (h : Like f f') {n : Name} {i : Nat} {ts : List Tag} {va : Bool} {r : Tag}
    (hm : Sym.foreign n i ts va r ∈ f.syms) : Sym.foreign n i ts va r ∈ f'.syms := by
  have h1 : Sym.foreign n i ts va r ∈ f.syms.map Sym.bare := List.mem_map.2 ⟨_, hm, rfl⟩
  rw [← h.syms] at h1
  obtain ⟨x, hx, e⟩ := List.mem_map.1 h1
  cases x <;> simp only [Sym.bare, reduceCtorEq] at e
  rw [← e]
  exact hx

theorem mark_func {f g : Front} {l : List (Option Nat × VarSym)} (h : g.syms = f.syms.map (Sym.mark l)) {j : Nat} {fi : FuncInfo}
    (hj : g.syms[j]? = some (.func fi)) : ∃ fi0, f.syms[j]? = some (.func fi0) := by
  rw [h, List.getElem?_map] at hj
  cases hx : f.syms[j]? with
  | none => rw [hx] at hj; cases hj
  | some x =>
    rw [hx] at hj
    cases x <;> simp only [Option.map_some, Sym.mark, Option.some.injEq, reduceCtorEq] at hj
    exact ⟨_, rfl⟩

theorem func_same {f : Front} (h : Slots f) {j k : Nat} {fi fk : FuncInfo} (hj : f.syms[j]? = some (.func fi))
    (hk : f.syms[k]? = some (.func fk)) (e : fi.index = fk.index) : j = k := by
  rcases Nat.lt_trichotomy j k with hl | hl | hl
  · have := pairwise_idx h.funcs hl (a := fi.index) (b := fk.index) (by rw [hj]; rfl) (by rw [hk]; rfl)
    omega
  · exact hl
  · have := pairwise_idx h.funcs hl (a := fk.index) (b := fi.index) (by rw [hk]; rfl) (by rw [hj]; rfl)
    omega

theorem program_append (ps : List (Front × List Stmt)) (p : Front × List Stmt) : program (ps ++ [p]) = program ps ++ p.2 := by
  simp [program]

theorem checked_piece {t f : Front} {xs : List CStmt} {ss : List Stmt} (hT : Tables t) (hc : t.currFunc = .none)
    (ho : DeclareOwn xs) (hn : (pdeclsL .none xs).Nodup) (hu : ∀ d ∈ pdeclsL .none xs, tagOf t d = some none)
    (hr : resolveSs xs t = .ok ss f) : TyLe (baseEnv t) (baseEnv f) ∧ Checked (baseEnv f) none (.block ss) := by
  have k := resolveSs_has xs hT ho hr
  have e : curFn t = none := by simp [curFn, hc]
  have hf := fresh_tree hT k.resolved (by simpa only [pdecls, hc] using hn) (by simpa only [pdecls, hc] using hu)
  have kc := k.checks
  rw [e] at kc hf
  obtain ⟨h1, h2⟩ := kc.checked hf
  refine ⟨h1, ?_⟩
  have := h2 (baseEnv f) (TyLe.refl _)
  have e1 : (baseEnv f).result none = none := rfl
  have e2 : (baseEnv f).at none = baseEnv f := by
    unfold TyEnv.at
    have : (fun i => (Option.bind none (baseEnv f).body).bind fun b => b.1 i) = (fun _ : Int => (none : Option Tag)) := by
      funext i; rfl
    rw [this]
    exact TyEnv.ext' (fun s => by cases s <;> rfl) (fun _ => rfl) (fun _ => rfl) (fun _ => rfl) (fun _ => rfl) rfl rfl
  rw [e1, e2] at this
  exact this

/-- After compiling a source. -/
theorem Inv.compiled {t u : TState} {ps : List (Front × List Stmt)} {pend : List Nat} {xs : List CStmt} {ss : List Stmt} {f : Front}
    {N : Nat} (h : Inv t ps (pend ++ procPosL xs)) (hr : resolveSs xs t.front = .ok ss f) (R : Result ss f t u)
    (hT : Tables u.front) (hc : u.front.currFunc = .none) (ho : DeclareOwn xs) (hn : (pdeclsL .none xs).Nodup)
    (hu : ∀ d ∈ pdeclsL .none xs, tagOf t.front d = some none) (hs : (procPosL xs).Pairwise (· < ·))
    (hpl : ∀ d ∈ pdeclsL .none xs, PlaceGe N d) (hp : ∀ j ∈ pend, j ∉ procPosL xs) : Inv u (ps ++ [(f, ss)]) pend := by
  have k := resolveSs_has xs h.tables ho hr
  have hrp := resolved_procs k.resolved
  simp only [procPos, procs] at hrp
  obtain ⟨ct, cp⟩ := checked_piece h.tables h.cur ho hn hu hr
  have le := frontLe_mark R.syms
  have hTf : Tables f := k.like.tables h.tables
  have fwd : ∀ (j : Nat) fi, t.front.syms[j]? = some (.func fi) → ∃ fi', u.front.syms[j]? = some (.func fi') ∧
      fi'.index = fi.index ∧ fi'.args.length = fi.args.length ∧ fi'.locals.length = fi.locals.length := by
    intro j fi hj
    obtain ⟨f1, h1, h2, h3, -, h4⟩ := k.like.func hj
    obtain ⟨f2, h5, h6, h7, h8⟩ := le_func le h1
    exact ⟨f2, h5, h6.trans h2, by rw [h7, h3], h8.trans h4⟩
  have bwd : ∀ (j : Nat) fi, u.front.syms[j]? = some (.func fi) → ∃ fi', t.front.syms[j]? = some (.func fi') ∧
      fi.index = fi'.index := by
    intro j fi hj
    obtain ⟨f1, h1⟩ := mark_func R.syms hj
    obtain ⟨f2, h5, -⟩ := k.like.symm.func h1
    obtain ⟨f3, h6, h7, -⟩ := fwd j f2 h5
    rw [hj] at h6
    cases h6
    exact ⟨f2, h5, h7⟩
  have hnd2 : (idsL ss).Nodup := by
    have q := rh_Ss (B := t.front.syms.map Sym.bare) xs hpl t.front h.cur rfl
    rw [hr] at q
    have q := q.2.2
    rw [q.nodup_iff]
    clear q
    revert hs
    generalize procPosL xs = l
    intro hs
    induction l with
    | nil => exact List.nodup_nil
    | cons p l ih =>
      rw [List.pairwise_cons] at hs
      simp only [funIds, List.filterMap_cons]
      cases hp : (t.front.syms.map Sym.bare)[p]?.bind Sym.funcIdx with
      | none => exact ih hs.2
      | some a =>
        refine List.nodup_cons.2 ⟨fun hm => ?_, ih hs.2⟩
        obtain ⟨q, hq, e⟩ := List.mem_filterMap.1 hm
        rw [getElem_bare] at e hp
        exact Nat.lt_irrefl _ (pairwise_idx h.tables.slots.funcs (hs.1 q hq) hp e)
  have hnd : (idsL (program ps ++ ss)).Nodup := by
    simp only [idsL, procsL_append, List.map_append]
    refine List.nodup_append.2 ⟨h.nodup, hnd2, ?_⟩
    rintro i hi i' hi' rfl
    obtain ⟨⟨i0, fn⟩, hm, rfl⟩ := List.mem_map.1 hi
    obtain ⟨⟨i1, fn'⟩, hm', e⟩ := List.mem_map.1 hi'
    simp only at e
    subst e
    obtain ⟨j, fi, h1, h2, h3, -⟩ := h.procs _ _ hm
    obtain ⟨j', hj', fi', h1', h2', -⟩ := hrp.2 _ _ hm'
    have := func_same h.tables.slots h1 h1' (h2.trans h2'.symm)
    subst this
    exact h3 (List.mem_append_right _ hj')
  have eg : globalsOf f = globalsOf t.front := like_globals k.like
  obtain ⟨i, c, hcode, e1, e2⟩ := R.code
  have hlen : t.program.length ≤ u.program.length := by
    have := compileState_len hcode
    simp only at this
    have := body_len t.program
    rw [e1]
    omega
  refine ⟨hT, hc, ?_, ?_, ?_, ?_, ?_, ?_, ?_, ?_⟩
  · intro hz
    rw [program_append]
    have hb : Built (globalsOf u.front) ⟨t.program, t.lines, i, t.functionPcs⟩ (program ps) :=
      built_more (h.built (by omega)) (by rw [← eg]; exact globals_le le) rfl rfl
    exact built_more (hb.compile (globals_le le) hcode (by rw [← e1]; exact hz) hnd).1 ⟨fun _ _ h => h, fun _ _ h => h⟩ e1 e2
  · intro _
    obtain ⟨as, s2, -, rfl⟩ := compileState_ok hcode
    rw [e1]
    simp
  · rw [program_append]
    exact hnd
  · intro i fn hm
    rw [program_append, procsL_append, List.mem_append] at hm
    rcases hm with hm | hm
    · obtain ⟨j, fi, h1, h2, h3, h4, h5⟩ := h.procs i fn hm
      obtain ⟨fi', h6, h7, h8, h9⟩ := fwd j fi h1
      exact ⟨j, fi', h6, h7.trans h2, fun hj => h3 (List.mem_append_left _ hj), h4.trans h8.symm, h5.trans h9.symm⟩
    · obtain ⟨j, hj, fi, h1, h2, h4, h5⟩ := hrp.2 i fn hm
      obtain ⟨fi', h6, h7, h8, h9⟩ := fwd j fi h1
      exact ⟨j, fi', h6, h7.trans h2, fun hj' => hp j hj' hj, h4.trans h8.symm, h5.trans h9.symm⟩
  · intro j fi hj
    rw [program_append, procsL_append]
    obtain ⟨fi', h1, h2⟩ := bwd j fi hj
    rw [h2]
    rcases h.cover j fi' h1 with hm | ⟨fn, hm⟩
    · rcases List.mem_append.1 hm with hm | hm
      · exact .inl hm
      · obtain ⟨fi2, fn, h3, h4⟩ := hrp.1 j hm
        rw [h1] at h3
        cases h3
        exact .inr ⟨fn, List.mem_append_right _ h4⟩
    · exact .inr ⟨fn, List.mem_append_left _ hm⟩
  · intro j hj
    have := h.pendLt j (List.mem_append_left _ hj)
    have e : f.syms.length = t.front.syms.length := by
      have := congrArg List.length k.like.syms
      simpa using this
    rw [R.syms, List.length_map, e]
    exact this
  · intro p hp
    rcases List.mem_append.1 hp with hp | hp
    · obtain ⟨a, b, c⟩ := h.pieces p hp
      exact ⟨a.trans (ct.more.trans (baseEnv_le le)), b, c⟩
    · simp only [List.mem_singleton] at hp
      subst hp
      exact ⟨baseEnv_le le, hTf, cp⟩
  · intro p hp n i ts va r hm
    have hmf : Sym.foreign n i ts va r ∈ f.syms := by
      rcases List.mem_append.1 hp with hp | hp
      · exact like_foreign k.like (h.bound p hp n i ts va r hm).1
      · simp only [List.mem_singleton] at hp
        subst hp
        exact hm
    refine ⟨le_foreign le hmf, ?_⟩
    rw [R.foreignFns]
    refine build_self f.syms _ hTf.slots.foreigns hmf ?_
    have := hTf.slots.foreignBound i (List.mem_filterMap.2 ⟨_, hmf, rfl⟩)
    simp only [List.length_append, List.length_replicate]
    omega

/-- **The invariant holds after every session.** -/
theorem session_inv {s0 s : TState} {ps : List (Front × List Stmt)} (h : Session s0 s ps) :
    ∀ ps0 pend, Inv s0 ps0 pend → Inv s (ps0 ++ ps) pend := by
  induction h with
  | start => intro ps0 pend h0; simpa using h0
  | call _ hk ih => exact fun ps0 pend h0 => (ih ps0 pend h0).called hk
  | fail _ ht hx hc hcur ih => exact fun ps0 pend h0 => (ih ps0 pend h0).failed ht hx hc hcur
  | @compile s0 s t s' ps ps' E file ts xs q ss f hs1 ht hp hm hs2 hr h ih1 ih2 =>
    intro ps0 pend h0
    have i1 := ih1 ps0 pend h0
    have i2 := ih2 _ _ (i1.parsed ht hp (s.nest + 1))
    have pp := parse_parsed ht i1.tables i1.cur hp
    obtain ⟨a2, b2, c2, d2⟩ := session_keeps hs2 pp.tables pp.cur
    have m := mid_of ht i1.tables i1.cur hp a2 b2 c2 d2
    obtain ⟨u, h1, rfl⟩ := compile_inv hp hm h
    have k := sh_rest s.front.syms.length q.st.syms.length file t m
    rw [h1] at k
    have k : Coded { s with nest := s.nest + 1 } u := k
    obtain ⟨ss1, us, nx, rest, s', g1, rfl, g3, g4⟩ := c45_program_sound frontOps hp
    obtain ⟨a, -⟩ := step_stmts ss1 (plain_prog g3) g4
    have e : (ps0 ++ (ps ++ ps' ++ [(f, ss)])) = (ps0 ++ ps ++ ps') ++ [(f, ss)] := by simp
    rw [e]
    rw [show (⟨ts, s.front⟩ : PS Front).st.currFunc = .none from i1.cur] at a
    have := i2.compiled (N := s.front.syms.length) (u := { u with nest := u.nest - 1 }) hr
      (let R := rest_inv hr h1; ⟨R.code, R.syms, R.foreignFns, R.globals, R.functions, R.foreigns⟩) k.tables k.cur pp.own
      a.nodup (fun d hd => tagOf_le a2.syms (a.untagged d hd)) pp.procs.2.1 pp.places ?_
    · exact this
    · intro j hj hj'
      have := i1.pendLt j hj
      have := (pp.procs.2.2 j hj').1
      omega

end Tiny
