import Verif.Proofs.Operands
import Verif.Props.Spells
import Verif.Proofs.WalkRun

/-!
# C66: every number in a compiled program refers to an entry of its table
-/

namespace Tiny
open Spec

/-- What the symbol table `f` still knows of a source which was compiled. -/
structure Piece (f : Front) (p : Front × List Stmt) : Prop where
  globals : GlobalsLe (globalsOf p.1) (globalsOf f)
  now : ∃ tree, SpellsSs f none tree p.2
  written : ∃ tree, SpellsSs p.1 none tree p.2

theorem Piece.on {f f' : Front} {p : Front × List Stmt} (h : Piece f p) (hl : Later f f') (hg : GlobalsLe (globalsOf f) (globalsOf f')) :
    Piece f' p where
  globals := ⟨fun n fs x => hg.structs n fs (h.globals.structs n fs x), fun n g x => hg.funcs n g (h.globals.funcs n g x)⟩
  now := h.now.imp fun _ k => hl.spellsSs k
  written := h.written

theorem Piece.survives {s s' : TState} {p : Front × List Stmt} (h : Piece s.front p) (k : Survives s s') : Piece s'.front p :=
  h.on (survives_later k) (globals_le k.syms)

/-- All sources of a session are still known. -/
theorem session_pieces {s0 s : TState} {ps : List (Front × List Stmt)} (h : Session s0 s ps) : Tables s0.front → s0.front.currFunc = .none →
    ∀ p ∈ ps, Piece s.front p := by
  induction h with
  | start => intro _ _ p hp; cases hp
  | call hs hk ih =>
    intro hT hc p hp
    obtain ⟨-, -, c, d⟩ := session_keeps hs hT hc
    exact (ih hT hc p hp).survives (session_keeps (Session.call .start hk) c d).1
  | fail hs ht hx hf hcur ih =>
    intro hT hc p hp
    obtain ⟨-, -, c, d⟩ := session_keeps hs hT hc
    exact (ih hT hc p hp).survives (session_keeps (Session.fail .start ht hx hf hcur) c d).1
  | @compile s0 s t s' ps ps' E file ts xs q ss f hs1 ht hp hm hs2 hr h ih1 ih2 =>
    intro hT hc p hpm
    obtain ⟨-, -, c, d⟩ := session_keeps hs1 hT hc
    have P := parse_parsed ht c d hp
    obtain ⟨k1, -, k3, k4⟩ := session_keeps hs2 P.tables P.cur
    have A := resolveSs_has xs k3 P.own hr
    obtain ⟨u, h4, rfl⟩ := compile_inv hp hm h
    have R := rest_inv hr h4
    obtain ⟨-, -, r3, -⟩ := rest_front hr h4
    have le := globals_le (frontLe_mark R.syms)
    have lu := mark_later (f' := u.front) R.syms r3
    simp only [List.mem_append, List.mem_singleton] at hpm
    rcases hpm with (hpm | hpm) | rfl
    · have := session_keeps (Session.compile .start ht hp hm hs2 hr h) c d
      exact (ih1 hT hc p hpm).survives this.1
    · have := ih2 P.tables P.cur p hpm
      exact (this.on (like_later A.like) (by rw [like_globals A.like]; exact ⟨fun _ _ h => h, fun _ _ h => h⟩)).on lu le
    · obtain ⟨tree, us, nx, rest, st, g1, rfl, g3, g4⟩ := c45_program_sound frontOps hp
      have hq : curFn t.front = none := by simp [curFn, k4]
      have L1 : SpellsSs t.front none tree ss := by
        have := (kin_stmts tree g4).tells (g := t.front) (g0 := t.front) ⟨(survives_later k1).toHeads, rfl, k4.trans P.cur.symm⟩ A.resolved
        rwa [hq] at this
      have L2 := (like_later A.like).spellsSs L1
      exact ⟨le, ⟨tree, lu.spellsSs L2⟩, tree, L2⟩

theorem refsSs_append (c : Option Nat) (a b : List Stmt) : refsSs c (a ++ b) = refsSs c a ++ refsSs c b := by
  induction a with
  | nil => rfl
  | cons x a ih => rw [List.cons_append, refsSs, ih, refsSs, List.append_assoc]

theorem refs_program {c : Option Nat} {ps : List (Front × List Stmt)} {r : Ref} (h : r ∈ refsSs c (program ps)) : ∃ p ∈ ps, r ∈ refsSs c p.2 := by
  induction ps with
  | nil => simp [program, refsSs] at h
  | cons p ps ih =>
    rw [show program (p :: ps) = p.2 ++ program ps from rfl, refsSs_append, List.mem_append] at h
    rcases h with h | h
    · exact ⟨p, by simp, h⟩
    · obtain ⟨q, hq, k⟩ := ih h
      exact ⟨q, by simp [hq], k⟩

/-- What holds of the instructions in the code of the function number `c`, or outside of functions. -/
def In (s : TState) (c : Option Nat) (op : Op) (i : Nat) : Prop :=
  match op with
  | .getLocal | .setLocal => ∃ fi, Sym.func fi ∈ s.front.syms ∧ c = some fi.index ∧ -(fi.args.length : Int) ≤ (BitVec.ofNat 32 i).toInt ∧
      (BitVec.ofNat 32 i).toInt < fi.locals.length
  | .getLocalW => ∃ fi, Sym.func fi ∈ s.front.syms ∧ c = some fi.index ∧ -(fi.args.length : Int) ≤ i ∧ (i : Int) < fi.locals.length
  | op => Refers s 0 op i

theorem structs_mem {f : Front} {n : Name} {fields : List (Name × Tag)} (h : (globalsOf f).structs n = some fields) :
    Sym.struct n true fields ∈ f.syms := by
  simp only [globalsOf] at h
  split at h
  · next fs hf =>
    cases h
    obtain ⟨x, hx, hi⟩ := List.exists_of_findSome?_eq_some hf
    cases x <;> simp only [Sym.structInfo] at hi <;> try cases hi
    split at hi
    · next e => cases hi; exact e ▸ hx
    · cases hi
  · cases h

/-- **C66.** In a program which was compiled by any sequence of calls of the host, every number in an instruction refers to an
entry of the table of its kind: numbers of texts to texts, numbers of variables to global variables, numbers of functions to
functions of which the code starts at an instruction of the program, numbers of bound functions to bound functions of which the state has
the pointer, numbers of locals to arguments or locals of the function to whose code the instruction belongs (outside of functions
there are none), numbers of fields to fields of a struct. So the machine never looks up something which is not there. (At most `2 ^ 32` of each, and the text
constants the host binds are numbers of texts, as `Tiny_BindConstString` has it.) -/
theorem c66_operands {f0 : Front} (h0 : Setup f0) {s : TState} {ps : List (Front × List Stmt)} (hs : Session { front := f0 } s ps)
    (hne : ps ≠ []) (hsize : s.program.length ≤ 2 ^ 32) (hF : s.front.numFunctions ≤ 2 ^ 32) (hX : s.front.numForeign ≤ 2 ^ 32)
    (hG : s.front.numGlobalVars ≤ 2 ^ 32) (hC : ∀ n t i, Sym.const n t (.str i) ∈ s.front.syms → i < s.front.strings.length)
    (hA : ∀ fi, Sym.func fi ∈ s.front.syms → fi.args.length ≤ 2 ^ 31) : AllRefer s := by
  have I := session_start h0 hs
  have hb := I.built hsize
  have hbody : s.program = body s.program ++ [Op.halt.toByte] := by
    obtain ⟨ys, hys⟩ := List.getLast?_eq_some_iff.1 (I.halt hne)
    rw [hys, body_halt]
  obtain ⟨as, hcode⟩ := hb.code
  have hat := (hcode (fun i => s.functionPcs[i]?) fun i _ => rfl).agree (Q := s.program) fun k _ hk => by
    conv_lhs => rw [hbody]
    rw [List.getElem?_append_left hk]
  have hlen : s.program.length = (body s.program).length + 1 := by
    have := congrArg List.length hbody
    simpa using this
  have hstr : ∀ i, i < s.front.strings.length → ∀ c, (pushStrI i).Refs (In s c) := by
    intro i hi c
    unfold pushStrI
    split
    · next hle =>
      refine ⟨s.front.strings[i], ?_⟩
      rw [show (UInt8.ofNat i).toNat = i from by simp; omega]
      simp [hi]
    · have := Nat.mod_le i (2 ^ 32)
      refine ⟨s.front.strings[i % 2 ^ 32]'(by omega), ?_⟩
      exact List.getElem?_eq_getElem _
  have hfn : ∀ (h : FnSym) (c : Option Nat) (n : Nat), (∃ m, NamedFn s.front m h) →
      (∀ i k va, h = .foreign i k va → ∃ m ts r, Sym.foreign m i ts va r ∈ s.front.syms ∧ s.foreignFns[i]? = some (some m)) →
      (callI n h).Refs (In s c) := by
    intro h c n h1 h2
    cases h with
    | tiny i =>
      obtain ⟨m, fi, h3, -, rfl⟩ := h1
      have hi := I.tables.slots.funcBound fi.index (List.mem_filterMap.2 ⟨_, h3, rfl⟩)
      obtain ⟨j, hj⟩ := List.getElem?_of_mem h3
      rcases I.cover j fi hj with h4 | ⟨fn, h4⟩
      · cases h4
      · obtain ⟨q, h5, h6, h7⟩ := hat.entries (fi.index, fn) h4
        replace h7 : q < (body s.program).length := h7
        refine ⟨fi, q, h3, ?_, ?_, h6, by omega⟩
        · exact (Nat.mod_eq_of_lt (by omega)).symm
        · rw [Nat.mod_eq_of_lt (by omega)]
          exact h5
    | «foreign» i k va =>
      obtain ⟨m, ts, r, h3, h4⟩ := h2 i k va rfl
      have hi := I.tables.slots.foreignBound i (List.mem_filterMap.2 ⟨_, h3, rfl⟩)
      refine ⟨m, ts, va, r, ?_⟩
      rw [Nat.mod_eq_of_lt (by omega)]
      exact ⟨h3, h4⟩
  have hok : ∀ r ∈ refsSs none (program ps), OkRef (In s) (globalsOf s.front) r := by
    intro r hr
    obtain ⟨p, hp, hr⟩ := refs_program hr
    obtain ⟨le, ⟨tree, h1⟩, tree', h2⟩ := session_pieces hs (setup_inv h0).tables (setup_inv h0).cur p hp
    have a := spells_refsSs h1 r hr
    have b := spells_refsSs h2 r hr
    have hbound : ∀ m i k va, NamedFn p.1 m (.foreign i k va) →
        ∃ m ts r, Sym.foreign m i ts va r ∈ s.front.syms ∧ s.foreignFns[i]? = some (some m) := by
      rintro m i k va ⟨ts, r, h3, -⟩
      exact ⟨m, ts, r, I.bound p hp m i ts va r h3⟩
    cases r with
    | str i =>
      obtain ⟨t, h⟩ := a
      exact hstr i (List.getElem?_eq_some_iff.1 h).1
    | const i =>
      obtain ⟨n, t, h⟩ := a
      exact hstr i (hC n t i h)
    | glob i =>
      obtain ⟨v, h3, rfl⟩ := a
      have := I.tables.slots.globBound v.idx (List.mem_filterMap.2 ⟨_, h3, rfl⟩)
      have e : indexBits (v.idx.toNat : Int) = v.idx.toNat := by
        unfold indexBits
        rw [BitVec.ofInt_natCast, BitVec.toNat_ofNat]
        exact Nat.mod_eq_of_lt (by omega)
      have : ∃ w, Sym.glob w ∈ s.front.syms ∧ w.idx = (v.idx.toNat : Int) ∧ v.idx.toNat < s.front.numGlobalVars :=
        ⟨v, h3, by omega, by omega⟩
      rw [OkRef, e]
      exact fun _ => ⟨this, this⟩
    | loc c i =>
      obtain ⟨fi, v, h3, rfl, h4, rfl⟩ := a
      have hl : fi.locals.length ≤ 255 := by
        obtain ⟨j, hj⟩ := List.getElem?_of_mem h3
        rcases I.cover j fi hj with h5 | ⟨fn, h5⟩
        · cases h5
        · obtain ⟨j', fi', k1, k2, -, -, k3⟩ := I.procs _ _ h5
          obtain ⟨-, -, -, -, -, -, -, k4, -⟩ := hat.fnIn (fi.index, fn) h5
          cases func_same I.tables.slots hj k1 k2.symm
          rw [hj] at k1
          cases k1
          simp only at k4
          omega
      have ha := hA fi h3
      have hv : -(fi.args.length : Int) ≤ v.idx ∧ v.idx < fi.locals.length := by
        rcases List.mem_append.mp h4 with h5 | h5
        · obtain ⟨k, hk⟩ := List.getElem?_of_mem h5
          have := I.tables.slots.args fi h3 k v hk
          have := (List.getElem?_eq_some_iff.1 hk).1
          omega
        · obtain ⟨k, hk⟩ := List.getElem?_of_mem h5
          have := I.tables.slots.locals fi h3 k v hk
          have := (List.getElem?_eq_some_iff.1 hk).1
          omega
      have e : (BitVec.ofNat 32 (indexBits v.idx)).toInt = v.idx := by
        unfold indexBits
        rw [BitVec.ofNat_toNat, BitVec.setWidth_eq, BitVec.toInt_ofInt]
        rw [Int.bmod_def]
        split <;> omega
      refine ⟨?_, ⟨fi, h3, rfl, by rw [e]; exact hv.1, by rw [e]; exact hv.2⟩⟩
      rw [show getVarI (.loc v.idx) = if v.idx < 0 ∨ 0xff < v.idx then Instr.opV .getLocal 4 (indexBits v.idx) else .opB .getLocalW (UInt8.ofNat v.idx.toNat)
        from rfl]
      split
      · exact ⟨fi, h3, rfl, by rw [e]; exact hv.1, by rw [e]; exact hv.2⟩
      · have e2 : ((UInt8.ofNat v.idx.toNat).toNat : Int) = v.idx := by simp; omega
        exact ⟨fi, h3, rfl, by rw [e2]; exact hv.1, by rw [e2]; exact hv.2⟩
    | fn h =>
      obtain ⟨m, h4⟩ := b
      exact fun c n => hfn h c n a fun i k va e => hbound m i k va (e ▸ h4)
    | call c =>
      intro h hc c' n
      have hc' : (referenceFunction s.front.syms c).bind Sym.fnSym = some h := hc
      obtain ⟨x, hx, hx'⟩ := Option.bind_eq_some_iff.mp hc'
      refine hfn h c' n ⟨c, referenceFunction_named hx hx'⟩ fun i k va e => ?_
      obtain ⟨h', h5⟩ := b
      have : ∃ y, referenceFunction p.1.syms c = some y := by
        refine Option.isSome_iff_exists.1 ?_
        unfold referenceFunction
        rw [List.find?_isSome]
        cases h' with
        | tiny i =>
          obtain ⟨fi, k1, k2, -⟩ := h5
          exact ⟨_, k1, by simp [Sym.isFunc, k2]⟩
        | «foreign» i m va =>
          obtain ⟨ts, r, k1, -⟩ := h5
          exact ⟨_, k1, by simp [Sym.isFunc]⟩
      obtain ⟨y, hy⟩ := this
      have hyf : ∃ h2, y.fnSym = some h2 := by
        have := List.find?_some hy
        cases y <;> simp [Sym.isFunc] at this <;> exact ⟨_, rfl⟩
      obtain ⟨h2, hy2⟩ := hyf
      have e2 : (globalsOf s.front).funcs c = some h2 := le.funcs c h2 (by simp [globalsOf, hy, hy2])
      rw [hc] at e2
      cases e2
      subst e
      exact hbound c i k va (referenceFunction_named hy hy2)
  have hfree : ∀ c, Free (In s c) := by
    intro c op i h
    cases op <;> first | trivial | exact absurd (by decide) h
  have hstruct : ∀ c, OkStructs (In s c) (globalsOf s.front) := by
    intro c n fields hn
    have hm := structs_mem hn
    exact ⟨⟨n, fields, hm, rfl⟩, fun i hi => ⟨⟨n, fields, hm, hi⟩, n, fields, hm, hi⟩⟩
  have K := hat.refs hfree hstruct none (by simpa only [Item.refs] using hok) .here
  intro p op hp ho hne
  by_cases hlt : p < (body s.program).length
  · obtain ⟨i, h1, h2⟩ := K.ops p op hp hlt ho hne
    refine ⟨i, h1, ?_⟩
    have hloc : ∀ k : Int, (∃ c, (c = none ∨ ∃ j, c = some j ∧ InCode s j p) ∧ ∃ fi, Sym.func fi ∈ s.front.syms ∧ c = some fi.index ∧
        -(fi.args.length : Int) ≤ k ∧ k < fi.locals.length) → InFrame s p k := by
      rintro k ⟨c, h3 | ⟨j, rfl, h3⟩, fi, h4, h5, h6⟩
      · rw [h3] at h5
        cases h5
      · cases h5
        exact ⟨fi, h4, h3, h6⟩
    have h4 : ∃ c, (c = none ∨ ∃ j, c = some j ∧ InCode s j p) ∧ In s c op i := by
      rcases h2 with h2 | ⟨j, h2, h3⟩
      · exact ⟨none, .inl rfl, h2⟩
      · exact ⟨some j, .inr ⟨j, rfl, h2⟩, h3⟩
    clear h2
    obtain ⟨c, h2, h3⟩ := h4
    cases op
    case getLocal => exact hloc (BitVec.ofNat 32 i).toInt ⟨c, h2, h3⟩
    case setLocal => exact hloc (BitVec.ofNat 32 i).toInt ⟨c, h2, h3⟩
    case getLocalW => exact hloc i ⟨c, h2, h3⟩
    all_goals exact h3
  · have : p < s.program.length := (List.getElem?_eq_some_iff.1 ho).1
    have e : p = (body s.program).length := by omega
    rw [e, hbody, List.getElem?_append_right (by rw [← hbody]), ← hbody] at ho
    simp only [Nat.sub_self, List.getElem?_cons_zero, Option.some.injEq] at ho
    rw [← Op.toByte_inj ho] at hne
    exact absurd rfl hne

/-! ## Examples -/

namespace OperandsEx

/-- The program of `Session1`, of two sources, one compiled by a macro of the other one. -/
theorem refers : AllRefer Session1.s4 := by
  refine c66_operands Session1.setup Session1.session (by simp) (by decide) (by decide) (by decide) (by decide) (fun n t i h => ?_) fun fi h => ?_
  · simp [Session1.s4, Session1.f4, Session1.f3, Session1.f2, Session1.symX, Session1.symD] at h
  · simp [Session1.s4, Session1.f4, Session1.f3, Session1.f2, Session1.symX, Session1.symD] at h
    subst h
    decide

/-- Its call, at 40, is one of the function 0, and 8 is where the code of the function starts. -/
example : ∃ q, Session1.s4.functionPcs[0]? = some q ∧ Visits Session1.s4.program 0 q ∧ q < Session1.s4.program.length := by
  have hv : Visits Session1.s4.program 0 40 := by
    refine .next (b := 8) (by kernel_rfl) (.next (b := 16) (by kernel_rfl) (.next (b := 24) (by kernel_rfl) (.next (b := 25) (by kernel_rfl)
      (.next (b := 26) (by kernel_rfl) (.next (b := 27) (by kernel_rfl) (.next (b := 40) (by kernel_rfl) .here))))))
  obtain ⟨i, h1, fi, q, h2, h3, h4⟩ := refers 40 .call hv (by kernel_rfl) (by decide)
  have e : operandAt Session1.s4.program .call 40 = some 0 := by kernel_rfl
  rw [e] at h1
  cases h1
  exact ⟨q, h4⟩

/-- The instruction at 8 reads the argument of this function, whose code goes from 8 to 27. -/
example : operandAt Session1.s4.program .getLocal 8 = some (2 ^ 32 - 1) ∧ InFrame Session1.s4 8 (-1) := by
  have hv : Visits Session1.s4.program 0 8 := .next (b := 8) (by kernel_rfl) .here
  obtain ⟨i, h1, h2⟩ := refers 8 .getLocal hv (by kernel_rfl) (by decide)
  have e : operandAt Session1.s4.program .getLocal 8 = some (2 ^ 32 - 1) := by kernel_rfl
  rw [e] at h1
  cases h1
  exact ⟨e, h2⟩

example : InCode Session1.s4 0 26 ∧ ¬ InFrame Session1.s4 8 0 := by
  refine ⟨⟨0, 8, 27, .here, by kernel_rfl, by kernel_rfl, by kernel_rfl, by omega, by omega⟩, ?_⟩
  rintro ⟨fi, h, -, -, h3⟩
  simp [Session1.s4, Session1.f4, Session1.f3, Session1.f2, Session1.symX, Session1.symD] at h
  subst h
  simp at h3

/-- The program of `Session2`, which calls a bound function. -/
example : AllRefer Session2.s1 :=
  c66_operands Session2.setup Session2.session (by simp) (by decide) (by decide) (by decide) (by decide)
    (fun n t i h => by simp [Session2.s1, Session2.f0] at h) fun fi h => by simp [Session2.s1, Session2.f0] at h

/-- A program which refers to a text there is not. -/
example : ¬ AllRefer { Session1.s4 with program := [Op.pushStringFF.toByte, 0, Op.halt.toByte] } := fun h => by
  obtain ⟨i, h1, t, h2⟩ := h 0 .pushStringFF .here rfl (by decide)
  have h2 : ([] : List (List UInt8))[i]? = some t := h2
  simp at h2

/-- A program which calls a function there is not. -/
example : ¬ AllRefer { Session2.s1 with foreignFns := [none] } := fun h => by
  obtain ⟨i, h1, n, ts, va, r, h2, h3⟩ := h 16 .callf (.next (b := 16) (by kernel_rfl) .here) (by kernel_rfl) (by decide)
  have h3 : ([none] : List (Option Name))[i]? = some (some n) := h3
  cases i <;> simp at h3

/-- A program which reads a field, where there is no struct. -/
example : ¬ AllRefer { Session2.s1 with program := [Op.structGet.toByte, 0, Op.halt.toByte] } := fun h => by
  obtain ⟨i, -, n, fs, h2, -⟩ := h 0 .structGet .here rfl (by decide)
  have h2 : Sym.struct n true fs ∈ Session2.s1.front.syms := h2
  simp [Session2.s1, Session2.f0] at h2

end OperandsEx

end Tiny
