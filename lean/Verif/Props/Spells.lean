import Verif.Proofs.Spells
import Verif.Props.Declares
import Verif.Props.SessionExamples

/-!
# C64: the program is the one which was written
-/

namespace Tiny
open Spec

theorem unmarked_key (v : VarInfo) : (unmarkedVar v).key = v.key := rfl

theorem unmarked_kept {x y : Sym} (h : Stays (unmarked x) (unmarked y)) : KeptAs x y ∧
    ∀ fi fi', x = .func fi → y = .func fi' → fi'.locals.length = fi.locals.length := by
  have e : (∀ n fs, x ≠ .struct n false fs) → unmarked y = unmarked x := fun hx => by
    have hx : ∀ n fs, unmarked x ≠ .struct n false fs := fun n fs e => by
      cases x <;> simp only [unmarked, reduceCtorEq] at e
      exact hx n fs e
    generalize unmarked x = a at h hx
    generalize unmarked y = z at h
    cases h with
    | kept k =>
      cases k with
      | same => rfl
      | filled n fs _ _ => exact (hx n fs rfl).elim
    | «opaque» n fs => exact (hx n fs rfl).elim
  cases x with
  | func fi =>
    replace e := e (by simp)
    cases y <;> simp only [unmarked, reduceCtorEq] at e
    next fi' =>
      rw [Sym.func.injEq, FuncInfo.mk.injEq] at e
      obtain ⟨e1, e2, e3, e4, e5⟩ := e
      have hv : ∀ l : List VarInfo, (l.map unmarkedVar).map (fun v => (v.name, v.tag)) = l.map fun v => (v.name, v.tag) := fun l => by
        simp [Function.comp_def, unmarkedVar]
      have hk : ∀ l : List VarInfo, (l.map unmarkedVar).map VarInfo.key = l.map VarInfo.key := fun l => by
        simp [Function.comp_def, unmarked_key]
      have hl : fi'.locals.map VarInfo.key = fi.locals.map VarInfo.key := by rw [← hk fi'.locals, e4, hk]
      refine ⟨⟨fi', rfl, ⟨e1, ?_, e5⟩, e2, ?_, by rw [hl]⟩, fun a b ha hb => ?_⟩
      · rw [← hv fi'.args, e3, hv]
      · rw [← hk fi'.args, e3, hk]
      · cases ha
        cases hb
        simpa using congrArg List.length hl
  | glob v =>
    replace e := e (by simp)
    cases y <;> simp only [unmarked, reduceCtorEq] at e
    next w =>
      refine ⟨⟨w, rfl, ?_⟩, by simp⟩
      rw [← unmarked_key w, Sym.glob.inj e, unmarked_key]
  | const n t c =>
    replace e := e (by simp)
    cases y <;> simp only [unmarked, reduceCtorEq] at e
    exact ⟨e, by simp⟩
  | «foreign» n i ts va r =>
    replace e := e (by simp)
    cases y <;> simp only [unmarked, reduceCtorEq] at e
    exact ⟨e, by simp⟩
  | _ => exact ⟨trivial, by simp⟩

theorem survives_later {s s' : TState} (h : Survives s s') : Later s.front s'.front where
  strs := h.strings
  keep := fun i x hi => by
    obtain ⟨y, hy, k⟩ := h.syms i x hi
    exact ⟨y, hy, (unmarked_kept k).1⟩
  locals := fun i fi fi' hi hi' => by
    obtain ⟨y, hy, k⟩ := h.syms i _ hi
    rw [hi'] at hy
    cases hy
    exact (unmarked_kept k).2 fi fi' rfl rfl

theorem like_later {f f' : Front} (h : Like f f') : Later f f' := by
  have H : ∀ (i : Nat) x, f.syms[i]? = some x → ∃ y, f'.syms[i]? = some y ∧ y.bare = x.bare := fun i x hi => by
    have : (f'.syms.map Sym.bare)[i]? = some x.bare := by rw [h.syms]; simp [hi]
    rw [List.getElem?_map] at this
    exact Option.map_eq_some_iff.mp this
  have hk : ∀ l : List VarInfo, (l.map VarInfo.bare).map VarInfo.key = l.map VarInfo.key := fun l => by
    rw [List.map_map]
    exact List.map_congr_left fun v _ => rfl
  refine ⟨⟨by rw [show f'.strings = f.strings from (congrArg Front.strings h).symm], fun i x hi => ?_⟩,
    fun i fi fi' hi hi' => ?_⟩
  · obtain ⟨y, hy, e⟩ := H i x hi
    refine ⟨y, hy, ?_⟩
    cases x with
    | func fi =>
      cases y <;> simp only [Sym.bare, reduceCtorEq] at e
      next fi' =>
        rw [Sym.func.injEq, FuncInfo.mk.injEq] at e
        obtain ⟨e1, e2, e3, e4, e5⟩ := e
        refine ⟨fi', rfl, ⟨e1, by rw [e3], e5⟩, e2, by rw [e3], ?_⟩
        rw [← hk fi'.locals, e4, hk]
    | glob v =>
      cases y <;> simp only [Sym.bare, reduceCtorEq] at e
      next w =>
        have e' : w.bare = v.bare := Sym.glob.inj e
        have e'' : w.bare.key = v.bare.key := by rw [e']
        exact ⟨w, rfl, e''⟩
    | const n t c =>
      cases y <;> simp only [Sym.bare, reduceCtorEq] at e
      exact e
    | «foreign» n i ts va r =>
      cases y <;> simp only [Sym.bare, reduceCtorEq] at e
      exact e
    | _ => trivial
  · obtain ⟨y, hy, e⟩ := H i _ hi
    rw [hi'] at hy
    cases hy
    simp only [Sym.bare, Sym.func.injEq, FuncInfo.mk.injEq] at e
    simpa using congrArg List.length e.2.2.2.1

theorem mark_later {f f' : Front} {l : List (Option Nat × VarSym)} (h : f'.syms = f.syms.map (Sym.mark l)) (hs : f.strings <+: f'.strings) :
    Later f f' := by
  have hk : ∀ n (vs : List VarInfo), (vs.map (markLocal l n)).map VarInfo.key = vs.map VarInfo.key := fun n vs => by
    rw [List.map_map]
    refine List.map_congr_left fun v _ => ?_
    simp only [Function.comp, markLocal]
    split <;> rfl
  have ht : ∀ n (vs : List VarInfo), (vs.map (markLocal l n)).map (fun v => (v.name, v.tag)) = vs.map fun v => (v.name, v.tag) := fun n vs => by
    rw [List.map_map]
    refine List.map_congr_left fun v _ => ?_
    simp only [Function.comp, markLocal]
    split <;> rfl
  refine ⟨⟨hs, fun i x hi => ⟨x.mark l, by rw [h]; simp [hi], ?_⟩⟩, fun i fi fi' hi hi' => ?_⟩
  · cases x with
    | func fi => exact ⟨_, rfl, ⟨rfl, ht _ _, rfl⟩, rfl, hk _ _, by dsimp only; rw [hk]⟩
    | glob v =>
      refine ⟨_, rfl, ?_⟩
      split <;> rfl
    | const n t c => rfl
    | «foreign» n i ts va r => rfl
    | _ => trivial
  · rw [h, List.getElem?_map, hi] at hi'
    simp only [Option.map_some, Option.some.injEq, Sym.mark, Sym.func.injEq] at hi'
    rw [← hi']
    simp

/-- **C64, later.** What has been compiled says the same whatever the host calls and compiles afterwards: text literals keep
their texts, functions keep their names. -/
theorem c64_later {f0 : Front} (h0 : Setup f0) {s s' : TState} {ps ps' : List (Front × List Stmt)} (hs : Session { front := f0 } s ps)
    (hs' : Session s s' ps') {tree : List SStmt} {ss : List Stmt} (h : SpellsSs s.front none tree ss) : SpellsSs s'.front none tree ss := by
  have I := session_start h0 hs
  exact (survives_later (session_keeps hs' I.tables I.cur).1).spellsSs h

/-- What the machine runs for a source is what was written. -/
theorem source_spelled {s t s' : TState} {ps' : List (Front × List Stmt)} {E : CompileEnv} {file : Option Name} {ts : List Tk}
    {xs : List CStmt} {q : PS Front} {ss : List Stmt} {f : Front} (hT : Tables s.front) (hc : s.front.currFunc = .none) (ht : Tail3 ts)
    (h1 : parseProgram E.fuel ⟨ts, s.front⟩ = .ok xs q)
    (h2 : useMacros E xs { s with nest := s.nest + 1, front := q.st } = .ok () t)
    (hs' : Session { s with nest := s.nest + 1, front := q.st } t ps') (h3 : resolveSs xs t.front = .ok ss f)
    (h : compileTokens E file ts s = .ok true s') :
    ∃ us nx rest tree, ts = us ++ nx :: rest ∧ nx.kind = .eofTok ∧ ProgIs tree us nx ∧ SpellsSs s'.front none tree ss := by
  have P := parse_parsed ht hT hc h1
  obtain ⟨k1, -, k3, k4⟩ := session_keeps hs' P.tables P.cur
  have A := resolveSs_has xs k3 P.own h3
  obtain ⟨u, h4, rfl⟩ := compile_inv h1 h2 h
  have R := rest_inv h3 h4
  obtain ⟨r1, r2, r3, r4⟩ := rest_front h3 h4
  obtain ⟨tree, us, nx, rest, st, g1, rfl, g3, g4⟩ := c45_program_sound frontOps h1
  refine ⟨us, nx, rest, tree, g1, c45_no_eof g3, g3, ?_⟩
  have hq : curFn t.front = none := by simp [curFn, k4]
  have L1 : SpellsSs t.front none tree ss := by
    have := (kin_stmts tree g4).tells (g := t.front) (g0 := t.front) ⟨(survives_later k1).toHeads, rfl, k4.trans P.cur.symm⟩ A.resolved
    rwa [hq] at this
  have L2 := (like_later A.like).spellsSs L1
  exact (mark_later (f' := u.front) R.syms r3).spellsSs L2

/-- **C64.** A source which is compiled without error continues the session with the statements the grammar gives to its text:
the same operators, names and literals at the same places. Text literals are the texts the string table has for them, variables
and functions the ones the symbol table has under their names, functions with these arguments and result. This includes sources which `use` macros,
whatever these bind and compile (as long as they use the API). -/
theorem c64_source {f0 : Front} (h0 : Setup f0) {s s' : TState} {ps : List (Front × List Stmt)} (hs : Session { front := f0 } s ps)
    {E : CompileEnv} {file : Option Name} {ts : List Tk} (ht : Tail3 ts)
    (hm : ∀ xs q t, parseProgram E.fuel ⟨ts, s.front⟩ = .ok xs q →
      useMacros E xs { s with nest := s.nest + 1, front := q.st } = .ok () t →
      ∃ ps', Session { s with nest := s.nest + 1, front := q.st } t ps')
    (h : compileTokens E file ts s = .ok true s') :
    ∃ us nx rest tree ss ps' f, ts = us ++ nx :: rest ∧ nx.kind = .eofTok ∧ ProgIs tree us nx ∧ SpellsSs s'.front none tree ss ∧
      Session { front := f0 } s' (ps ++ ps' ++ [(f, ss)]) := by
  obtain ⟨xs, q, t, ss, f, h1, h2, h3⟩ := compile_true h
  obtain ⟨ps', hs'⟩ := hm xs q t h1 h2
  have I := session_start h0 hs
  obtain ⟨us, nx, rest, tree, g1, g2, g3, g4⟩ := source_spelled I.tables I.cur ht h1 h2 hs' h3 h
  exact ⟨us, nx, rest, tree, ss, ps', f, g1, g2, g3, g4, Session.compile hs ht h1 h2 hs' h3 h⟩

mutual
theorem funcs_spelled {f : Front} : ∀ {c : Option Nat} {s : SStmt} {s' : Stmt}, SpellsS f c s s' → List.Forall₂ (IsFunc f) (funcsIn s) (procs s')
  | _, _, _, .node a => by simpa [funcsIn, procs] using funcs_spelled a
  | _, _, _, .call a _ => by simp [funcsIn, procs]
  | _, _, _, .block a => by simpa [funcsIn, procs] using funcs_spelledL a
  | _, _, _, .assign o a b => by simp [funcsIn, procs]
  | _, _, _, .other o a => by simp [funcsIn, procs]
  | _, _, _, .proc w a => by
    rw [funcsIn, procs]
    exact .cons ⟨w, a⟩ (funcs_spelled a)
  | _, _, _, .ifThen a b => by simpa [funcsIn, procs] using funcs_spelled b
  | _, _, _, .ifElse a b c => by
    rw [funcsIn, procs]
    exact List.rel_append (funcs_spelled b) (funcs_spelled c)
  | _, _, _, .while a b => by simpa [funcsIn, procs] using funcs_spelled b
  | _, _, _, .for a b c d => by
    rw [funcsIn, procs]
    exact List.rel_append (List.rel_append (funcs_spelled a) (funcs_spelled d)) (funcs_spelled c)
  | _, _, _, .retNone => by simp [funcsIn, procs]
  | _, _, _, .ret a => by simp [funcsIn, procs]
  | _, _, _, .brk => by simp [funcsIn, procs]
  | _, _, _, .cont => by simp [funcsIn, procs]
  | _, _, _, .use => by simp [funcsIn, procs]
  | _, _, _, .struct => by simp [funcsIn, procs, procsL]
theorem funcs_spelledL {f : Front} : ∀ {c : Option Nat} {ss : List SStmt} {ss' : List Stmt}, SpellsSs f c ss ss' →
    List.Forall₂ (IsFunc f) (funcsInL ss) (procsL ss')
  | _, _, _, .nil => by simp [funcsInL, procsL]
  | _, _, _, .cons a b => by
    rw [funcsInL, procsL]
    exact List.rel_append (funcs_spelled a) (funcs_spelledL b)
end

/-- **C64, functions.** The functions of the program are the ones which were written, one for one, with their parameters and
bodies. -/
theorem c64_functions {f : Front} {tree : List SStmt} {ss : List Stmt} (h : SpellsSs f none tree ss) :
    List.Forall₂ (IsFunc f) (funcsInL tree) (procsL ss) := funcs_spelledL h

/-- **C64, calls.** If a call of `n` means the function number `i`, and the statements of a source define it, then the source has a
function `n`, and what is run is its body. -/
theorem c64_called {f0 : Front} (h0 : Setup f0) {s : TState} {ps : List (Front × List Stmt)} (hs : Session { front := f0 } s ps)
    {tree : List SStmt} {ss : List Stmt} (h : SpellsSs s.front none tree ss) {n : Name} {i : Nat} {fn : Fn}
    (hc : (globalsOf s.front).funcs n = some (.tiny i)) (hp : (i, fn) ∈ procsL ss) :
    ∃ d ∈ funcsInL tree, d.name = n ∧ fn.nargs = d.params.length ∧ SpellsS s.front (some i) d.body fn.body := by
  obtain ⟨d, hd, k⟩ : ∃ d ∈ funcsInL tree, IsFunc s.front d (i, fn) := by
    have H := c64_functions h
    clear h
    generalize funcsInL tree = a at H ⊢
    generalize procsL ss = b at H hp
    induction H with
    | nil => cases hp
    | @cons x y l m hx _ ih =>
      rcases List.mem_cons.mp hp with rfl | hp
      · exact ⟨x, by simp, hx⟩
      · obtain ⟨d, h1, h2⟩ := ih hp
        exact ⟨d, by simp [h1], h2⟩
  obtain ⟨fi, w1, w2, w3, w4, w5, w6, w7⟩ := k.written
  refine ⟨d, hd, ?_, w6, k.body⟩
  have hc : (referenceFunction s.front.syms n).bind Sym.fnSym = some (.tiny i) := hc
  obtain ⟨x, hx, hi⟩ := Option.bind_eq_some_iff.mp hc
  have hm := List.mem_of_find?_eq_some hx
  have hn := List.find?_some hx
  cases x <;> simp only [Sym.fnSym, reduceCtorEq, Option.some.injEq] at hi
  next fj =>
    have hi : fj.index = i := by cases hi; rfl
    have I := (session_start h0 hs).tables.slots.funcs
    have hn : fj.name = n := by simpa [Sym.isFunc] using hn
    have e : fj = fi := by
      obtain ⟨p, hp⟩ := List.getElem?_of_mem hm
      obtain ⟨q, hq⟩ := List.getElem?_of_mem w1
      have e : p = q := by
        rcases Nat.lt_trichotomy p q with h | h | h
        · have := pairwise_idx I h (a := fj.index) (b := fi.index) (by rw [hp]; rfl) (by rw [hq]; rfl)
          omega
        · exact h
        · have := pairwise_idx I h (a := fi.index) (b := fj.index) (by rw [hq]; rfl) (by rw [hp]; rfl)
          omega
      subst e
      rw [hp] at hq
      cases hq
      rfl
    rw [← w2, ← e, hn]

/-! ## Examples -/

namespace SpellsEx

/-- The source of `Session1`, which uses a macro which compiles a source. -/
example : ∃ us nx rest tree ss ps' f, sourceTokens Session1.host.strtod Session1.outer = us ++ nx :: rest ∧ nx.kind = .eofTok ∧
    ProgIs tree us nx ∧ SpellsSs Session1.s3.front none tree ss ∧ Session { front := Session1.f0 } Session1.s3 ([] ++ ps' ++ [(f, ss)]) := by
  refine c64_source (E := Session1.host) (file := none) Session1.setup .start Session1.tailOuter (fun xs q t h1 h2 => ?_) Session1.compileOuter
  rw [show ({ front := Session1.f0 } : TState).front = Session1.f0 from rfl, Session1.parseOuter] at h1
  cases h1
  have := Session1.macros
  rw [show ({ ({ front := Session1.f0 } : TState) with nest := 0 + 1, front := Session1.f1 } : TState) = ⟨Session1.f1, [], [], [], [], 1⟩ from rfl,
    this] at h2
  cases h2
  exact ⟨_, Session1.nested⟩

def src : List UInt8 := bytes "func g(a : int) : str { return \"hi\" }  y := \"ho\""

def after : TState := match compileString plainHost none src Session1.s4 with
  | .ok true s => s
  | _ => {}

theorem compiled : compileString plainHost none src Session1.s4 = .ok true after := by kernel_rfl

/-- The tables after it: `g` is the second function, after `d`. -/
theorem tables : after.front.strings = [bytes "hi", bytes "ho"] ∧
    Sym.func ⟨bytes "g", 1, [⟨bytes "a", -1, 0, false, some .int, false⟩], [], some .str⟩ ∈ after.front.syms := by
  refine ⟨by decide +kernel, ?_⟩
  refine List.mem_of_getElem? (i := 3) ?_
  kernel_rfl

/-- The body of `g` and the value of `y` are told apart. -/
example : Spells after.front none (.str (bytes "hi")) (.str 0) ∧ ¬ Spells after.front none (.str (bytes "hi")) (.str 1) := by
  refine ⟨.str (by rw [tables.1]; rfl), fun h => ?_⟩
  cases h with
  | str h =>
    rw [tables.1] at h
    revert h
    decide +kernel

/-- So are the functions. -/
example : SpellsS after.front none (.proc () (bytes "g") [(bytes "a", (bytes "int", false))] (some (bytes "str", false))
    (.block [.ret (some (.str (bytes "hi")))])) (.proc 1 1 0 (.block [.ret (some (.str 0))])) := by
  refine .proc ⟨_, tables.2, rfl, ?_, ?_, rfl, rfl, rfl⟩ (.block (.cons (.ret (.str (by rw [tables.1]; rfl))) .nil))
  · decide +kernel
  · decide +kernel

/-- `y` is the variable number 2, not the variable number 0 (which is called `x`). -/
example : Spells after.front none (.id (bytes "y") ()) (.id (bytes "y") (some (.glob 2))) ∧
    ¬ Spells after.front none (.id (bytes "y") ()) (.id (bytes "y") (some (.glob 0))) := by
  have e : after.front.syms.filterMap (fun x => match x with | .glob v => some (v.name, v.idx.toNat) | _ => none) =
      [(bytes "x", 0), (bytes "y", 2)] := by decide +kernel
  refine ⟨.id ?_, fun h => ?_⟩
  · have : (bytes "y", 2) ∈ after.front.syms.filterMap (fun x => match x with | .glob v => some (v.name, v.idx.toNat) | _ => none) := by
      rw [e]; simp
    obtain ⟨x, h1, h2⟩ := List.mem_filterMap.mp this
    cases x <;> simp only [reduceCtorEq, Option.some.injEq, Prod.mk.injEq] at h2
    next v => exact ⟨v, h1, h2.1, h2.2⟩
  · cases h with
    | id h =>
      obtain ⟨v, h1, h2, h3⟩ := h
      have : (bytes "y", 0) ∈ after.front.syms.filterMap (fun x => match x with | .glob v => some (v.name, v.idx.toNat) | _ => none) :=
        List.mem_filterMap.mpr ⟨_, h1, by rw [← h2, ← h3]⟩
      rw [e] at this
      revert this
      decide +kernel

/-- A call of `g` means it. -/
example : (globalsOf after.front).funcs (bytes "g") = some (.tiny 1) := by decide +kernel

/-- A source compiled after a failed one. -/
example : ∃ us nx rest tree ss ps' f, sourceTokens plainHost.strtod src = us ++ nx :: rest ∧ nx.kind = .eofTok ∧ ProgIs tree us nx ∧
    SpellsSs after.front none tree ss ∧
    Session { front := Session1.f0 } after ([(Session1.f2, Session1.innerProg), (Session1.f3, Session1.outerProg)] ++ ps' ++ [(f, ss)]) := by
  refine c64_source (E := plainHost) Session1.setup Session1.session (Session1.tail_of (by decide +kernel) (by decide +kernel))
    (fun xs q t h1 h2 => ?_) compiled
  have hu : NoUse xs := by
    have e : (match parseProgram plainHost.fuel ⟨sourceTokens plainHost.strtod src, Session1.s4.front⟩ with
      | .ok [.node 1 (.proc _ _ _ _ _), .node 1 (.assign _ _ _ _)] _ => true
      | _ => false) = true := by kernel_rfl
    rw [h1] at e
    split at e
    · next k => cases k; intro a b c d hm; simp at hm
    · cases e
  rw [useMacros_none hu] at h2
  cases h2
  exact ⟨[], .start⟩

end SpellsEx

end Tiny
