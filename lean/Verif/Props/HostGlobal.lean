import Verif.Model.HostGlobal
import Verif.Props.Session
import Verif.Props.SessionExamples

/-!
# C63: the host reads and sets global variables
-/

namespace Tiny
open Spec

theorem index_ok {i : Int} {n : Nat} (h : 0 ≤ i ∧ i < n) : Res.assert (decide (0 ≤ i ∧ i < n)) = .ok () := by
  simp [Res.assert, h]

theorem index_abort {i : Int} {n : Nat} (h : ¬ (0 ≤ i ∧ i < n)) : Res.assert (decide (0 ≤ i ∧ i < n)) = .abort := by
  simp only [Res.assert, h, decide_false, Bool.false_eq_true, if_false]

theorem find_glob {f : Front} {n : Name} {x : Sym} (h : f.syms.find? (Sym.isGlob n) = some x) :
    ∃ v, x = .glob v ∧ v.name = n ∧ Sym.glob v ∈ f.syms ∧ getGlobalIndex f n = v.idx := by
  have h1 := List.find?_some h
  have h2 := List.mem_of_find?_eq_some h
  cases x with
  | glob v => exact ⟨v, rfl, by simpa [Sym.isGlob] using h1, h2, by rw [getGlobalIndex, h]⟩
  | _ => simp [Sym.isGlob] at h1

/-- **C63.** In every state a host can reach, `Tiny_GetGlobalIndex` is -1 exactly for names which are not those of global
variables. Otherwise it is the number of such a variable, which is one of the state's, and no other variable has it. -/
theorem c63_index {f0 : Front} (h0 : Setup f0) {s : TState} {ps : List (Front × List Stmt)} (hs : Session { front := f0 } s ps) (n : Name) :
    (getGlobalIndex s.front n = -1 ↔ ∀ v, Sym.glob v ∈ s.front.syms → v.name ≠ n) ∧
    (getGlobalIndex s.front n ≠ -1 → 0 ≤ getGlobalIndex s.front n ∧ getGlobalIndex s.front n < s.front.numGlobalVars ∧
      (∃ v, Sym.glob v ∈ s.front.syms ∧ v.name = n ∧ v.idx = getGlobalIndex s.front n) ∧
      ∀ v, Sym.glob v ∈ s.front.syms → v.idx = getGlobalIndex s.front n → v.name = n) := by
  have I := session_start h0 hs
  have hb : ∀ v, Sym.glob v ∈ s.front.syms → 0 ≤ v.idx ∧ v.idx < s.front.numGlobalVars := fun v hv =>
    I.tables.slots.globBound v.idx (List.mem_filterMap.2 ⟨_, hv, rfl⟩)
  cases hf : s.front.syms.find? (Sym.isGlob n) with
  | none =>
    have hi : getGlobalIndex s.front n = -1 := by rw [getGlobalIndex, hf]
    refine ⟨⟨fun _ v hv e => ?_, fun _ => hi⟩, fun h => absurd hi h⟩
    have := List.find?_eq_none.1 hf _ hv
    simp [Sym.isGlob, e] at this
  | some x =>
    obtain ⟨v, rfl, hn, hm, hi⟩ := find_glob hf
    have := hb v hm
    refine ⟨⟨fun h => by omega, fun h => absurd hn (h v hm)⟩, fun _ => ⟨by omega, by omega, ⟨v, hm, hn, hi.symm⟩, fun u hu e => ?_⟩⟩
    obtain ⟨i, hi'⟩ := List.getElem?_of_mem hu
    obtain ⟨j, hj'⟩ := List.getElem?_of_mem hm
    have e2 := pairwise_getElem_ne (I.tables.slots.globs.imp (fun h => by omega)) hi' hj' (a := u.idx) rfl (by simp [Sym.globIdx, e, hi])
    subst e2
    rw [hi'] at hj'
    cases hj'
    exact hn

/-- **C63.** It is the variable a source means by that name. -/
theorem c63_named {f : Front} {n : Name} {r : SymRef} {i : Nat} {t : Option Tag} (hpos : ∀ v, Sym.glob v ∈ f.syms → 0 ≤ v.idx)
    (hr : referenceVariable n f = .ok (some r) f) (hi : symInfo f r = .ok (.glob i, t)) : getGlobalIndex f n = i := by
  obtain ⟨p, v, rfl, hp, e⟩ : ∃ p v, r = .glob p ∧ f.syms[p]? = some (.glob v) ∧ v.idx.toNat = i := by
    cases r with
    | glob p =>
      simp only [symInfo] at hi
      split at hi
      · rename_i v hv; cases hi; exact ⟨p, v, rfl, hv, rfl⟩
      · cases hi
      · cases hi
    | _ =>
      simp only [symInfo] at hi
      repeat' split at hi
      all_goals first | cases hi | skip
  have hidx : f.syms.findIdx? (·.isVar n) = some p := by
    unfold referenceVariable at hr
    simp only [act_bind] at hr
    cases hc : currentFunc f with
    | ok fi f' =>
      have : f' = f := by
        unfold currentFunc at hc
        repeat' split at hc
        all_goals first | (cases hc; rfl) | cases hc
      subst this
      rw [hc] at hr
      simp only at hr
      cases hl : lookupFunc n fi with
      | some r' =>
        rw [hl] at hr
        simp only [pure] at hr
        cases hr
        unfold lookupFunc at hl
        cases fi with
        | none => cases hl
        | some fi =>
          simp only at hl
          split at hl
          · cases hl
          · simp at hl
      | none =>
        rw [hl] at hr
        cases hx : f'.syms.findIdx? (·.isVar n) with
        | none =>
          have : (Out.ok none f' : Out Front (Option SymRef)) = .ok (some (.glob p)) f' := by
            rw [← hr]; show _ = Out.ok (Option.map SymRef.glob (f'.syms.findIdx? (·.isVar n))) f'; rw [hx]; rfl
          cases this
        | some q =>
          have : (Out.ok (some (.glob q)) f' : Out Front (Option SymRef)) = .ok (some (.glob p)) f' := by
            rw [← hr]; show _ = Out.ok (Option.map SymRef.glob (f'.syms.findIdx? (·.isVar n))) f'; rw [hx]; rfl
          cases this; rfl
    | _ => rw [hc] at hr; cases hr
  obtain ⟨hlt, h1, h2⟩ := List.findIdx?_eq_some_iff_getElem.1 hidx
  have hpe : f.syms[p] = .glob v := (List.getElem?_eq_some_iff.1 hp).2
  have hfind : f.syms.find? (Sym.isGlob n) = some (.glob v) := by
    rw [List.find?_eq_some_iff_getElem]
    refine ⟨by rw [hpe] at h1; exact h1, p, hlt, hpe, fun j hj => ?_⟩
    have := h2 j hj
    revert this
    cases f.syms[j] <;> simp [Sym.isVar, Sym.isGlob]
  have := hpos v (List.mem_of_getElem? hp)
  rw [getGlobalIndex, hfind]
  show v.idx = i
  omega

theorem kept_glob_name {v : VarInfo} {y : Sym} (h : Stays (unmarked (.glob v)) (unmarked y)) :
    ∃ v', y = .glob v' ∧ v'.idx = v.idx ∧ v'.name = v.name := by
  generalize hz : unmarked y = z at h
  simp only [unmarked] at h
  generalize hq : Sym.glob _ = q at h
  cases h with
  | «opaque» => cases hq
  | kept h =>
  subst hz
  cases y <;> simp only [unmarked] at h <;> cases h <;> try cases hq
  next v' =>
    simp only [unmarkedVar, Sym.glob.injEq, VarInfo.mk.injEq] at hq
    exact ⟨v', rfl, hq.2.1.symm, hq.1.symm⟩

/-- **C63.** Whatever the host and its sources do later, a variable keeps its number. -/
theorem c63_stays {f0 : Front} (h0 : Setup f0) {s s' : TState} {ps ps' : List (Front × List Stmt)} (hs : Session { front := f0 } s ps)
    (hs' : Session s s' ps') {n : Name} (hn : getGlobalIndex s.front n ≠ -1) :
    getGlobalIndex s'.front n = getGlobalIndex s.front n ∧ s.front.numGlobalVars ≤ s'.front.numGlobalVars := by
  have I := session_start h0 hs
  obtain ⟨hv, -, -, -⟩ := session_keeps hs' I.tables I.cur
  refine ⟨?_, hv.globals⟩
  cases hf : s.front.syms.find? (Sym.isGlob n) with
  | none => exact absurd (by rw [getGlobalIndex, hf]) hn
  | some x =>
    obtain ⟨v, rfl, hvn, hm, hi⟩ := find_glob hf
    obtain ⟨h1, p, hlt, hp, hbefore⟩ := List.find?_eq_some_iff_getElem.1 hf
    obtain ⟨y, hy, k⟩ := hv.syms p (.glob v) (by rw [List.getElem?_eq_getElem hlt, hp])
    obtain ⟨v', rfl, e1, e2⟩ := kept_glob_name k
    obtain ⟨hlt', hp'⟩ := List.getElem?_eq_some_iff.1 hy
    have hfind : s'.front.syms.find? (Sym.isGlob n) = some (.glob v') := by
      rw [List.find?_eq_some_iff_getElem]
      refine ⟨by simp [Sym.isGlob, e2, hvn], p, hlt', hp', fun j hj => ?_⟩
      have hb := hbefore j hj
      obtain ⟨z, hz, kz⟩ := hv.syms j s.front.syms[j] (List.getElem?_eq_getElem (by omega))
      rw [(List.getElem?_eq_some_iff.1 hz).2]
      generalize s.front.syms[j] = x at hb kz
      cases x with
      | glob u =>
        obtain ⟨u', rfl, -, e3⟩ := kept_glob_name kz
        simpa [Sym.isGlob, e3] using hb
      | _ =>
        rcases kept_kind kz with ⟨a, b, c, rfl⟩ | ⟨a, b, c, rfl⟩ | ⟨a, b, c, d, e, g, rfl, -⟩ | ⟨a, b, c, rfl⟩ | rfl
        all_goals first | cases c | skip
        all_goals rfl
    rw [getGlobalIndex, hfind, hi]
    exact e1

/-- **C63.** Reading: the value of that number; outside of the state's numbers an assertion fails. -/
theorem c63_get {k : Nat} {t : Thread} {i : Int} (hk : t.world.globals.length = k) :
    (∀ v, 0 ≤ i → t.world.globals[i.toNat]? = some v → getGlobal k t i = .ok v) ∧
    (i < 0 ∨ (k : Int) ≤ i → getGlobal k t i = .abort) := by
  refine ⟨fun v h0 h => ?_, fun h => ?_⟩
  · have := (List.getElem?_eq_some_iff.1 h).1
    rw [getGlobal, index_ok ⟨h0, by omega⟩, Res.bind_ok, h]
  · rw [getGlobal, index_abort (by omega)]; rfl

/-- **C63.** Setting a variable: it has the value, all others have the values they had, and nothing else of the thread has
changed. -/
theorem c63_set {k : Nat} {t : Thread} {i : Int} {v : Value} (hk : t.world.globals.length = k) (h : 0 ≤ i ∧ i < k) :
    ∃ t', setGlobal k t i v = .ok t' ∧ getGlobal k t' i = .ok v ∧ (∀ j, j ≠ i → getGlobal k t' j = getGlobal k t j) ∧
      t'.pc = t.pc ∧ t'.fp = t.fp ∧ t'.stack = t.stack ∧ t'.frames = t.frames ∧ t'.retVal = t.retVal ∧
      t'.world.heap = t.world.heap ∧ t'.world.trace = t.world.trace ∧ t'.world.globals = t.world.globals.set i.toNat v := by
  have hlt : i.toNat < t.world.globals.length := by omega
  refine ⟨{ t with world := { t.world with globals := t.world.globals.set i.toNat v } }, ?_, ?_, fun j hj => ?_, rfl, rfl, rfl, rfl, rfl, rfl, rfl, rfl⟩
  · rw [setGlobal, index_ok h, Res.bind_ok, if_pos hlt]
  · refine (c63_get (by simp [hk])).1 v h.1 ?_
    simp [hlt]
  · unfold getGlobal
    by_cases hj0 : 0 ≤ j ∧ j < k
    · rw [index_ok hj0, Res.bind_ok, Res.bind_ok]
      rw [List.getElem?_set_ne (by omega)]
    · rw [index_abort hj0]; rfl

/-- **C63.** After the run of a program, the host reads from each variable the value the language says it has then. -/
theorem c63_run {f0 : Front} (h0 : Setup f0) {s : TState} {ps : List (Front × List Stmt)} (hs : Session { front := f0 } s ps)
    (hne : ps ≠ []) {c : Ctx} {env : Env} (M : MachineOf s (program ps) c env) (hf : ForeignParametric env) {n : Nat} {w : World}
    (hrun : runProgram c n s.front.numGlobalVars (program ps) = .ok w) :
    (∃ fuel, run env fuel (startThread s.front.numGlobalVars) = .limit) ∨
    MeetsCycle env (startThread s.front.numGlobalVars) ∨
    ∃ fuel t, run env fuel (startThread s.front.numGlobalVars) = .ok t ∧
      ∀ x v, getGlobalIndex s.front x ≠ -1 → w.globals[(getGlobalIndex s.front x).toNat]? = some v →
        getGlobal s.front.numGlobalVars t (getGlobalIndex s.front x) = .ok v := by
  rcases (c48_run h0 hs hne M hf).1 n w hrun with h | h | ⟨fuel, t, h1, -, -, -, h2, -⟩
  · exact .inl h
  · exact .inr (.inl h)
  · refine .inr (.inr ⟨fuel, t, h1, fun x v hx hv => ?_⟩)
    obtain ⟨a, b, -⟩ := (c63_index h0 hs x).2 hx
    rw [getGlobal, index_ok ⟨a, b⟩, Res.bind_ok, h2, hv]

/-- **C63.** A function of the program which the host calls after setting a variable runs as the language says with that
variable having that value (and everything else as it was). -/
theorem c63_call {f0 : Front} (h0 : Setup f0) {s : TState} {ps : List (Front × List Stmt)} (hs : Session { front := f0 } s ps)
    (hne : ps ≠ []) {c : Ctx} {env : Env} (M : MachineOf s (program ps) c env) (hf : ForeignParametric env)
    {i : Nat} {fn : Fn} (hm : (i, fn) ∈ procsL (program ps)) {t : Thread} {vs : List Value} (hvs : vs.length = fn.nargs)
    (h255 : vs.length ≤ 255) (hst : t.stack.length ≤ env.stackSize) (hg : t.world.globals.length = s.front.numGlobalVars)
    {x : Name} {u : Value} (hx : getGlobalIndex s.front x ≠ -1)
    (hw : WfHeap t.world.heap (t.retVal :: (t.stack ++ vs ++ t.world.globals.set (getGlobalIndex s.front x).toNat u)))
    {n : Nat} {v : Value} {w : World}
    (hc : Spec.call c n (.tiny i) vs { t.world with globals := t.world.globals.set (getGlobalIndex s.front x).toNat u } = .ok (v, w)) :
    ∃ t1, setGlobal s.front.numGlobalVars t (getGlobalIndex s.front x) u = .ok t1 ∧
      ((∃ fuel, callFunction env fuel t1 i vs = .limit) ∨
      (∃ t', pushAll env t1 vs = .ok t' ∧ ∃ e, env.functionPcs[i]? = some e ∧
        ∃ t'', pushIndir env { t' with pc := (e : Nat) } (vs.length % 256) = .ok t'' ∧ MeetsCycle env t'') ∨
      ∃ fuel t', callFunction env fuel t1 i vs = .ok (v, t') ∧ t'.world.globals = w.globals ∧ t'.world.trace = w.trace) := by
  obtain ⟨a, b, -⟩ := (c63_index h0 hs x).2 hx
  have hlt : (getGlobalIndex s.front x).toNat < t.world.globals.length := by omega
  refine ⟨{ t with world := { t.world with globals := t.world.globals.set (getGlobalIndex s.front x).toNat u } }, ?_, ?_⟩
  · rw [setGlobal, index_ok ⟨a, b⟩, Res.bind_ok, if_pos hlt]
  · rcases (c48_call h0 hs hne M hf hm hvs h255 (t := { t with world := { t.world with globals := t.world.globals.set (getGlobalIndex s.front x).toNat u } }) hst hw).1 n v w hc with h | h | ⟨fuel, t', h1, -, -, -, -, -, h2, h3, -⟩
    · exact .inl h
    · exact .inr (.inl h)
    · exact .inr (.inr ⟨fuel, t', h1, h2, h3⟩)

/-- **C63, a defect.** A thread has the variables there were when it was started. For a variable of a source compiled later the
assertion holds, and memory behind the array is read or written. -/
theorem c63_defect_later {s' : TState} {t : Thread} {x : Name} (h1 : (t.world.globals.length : Int) ≤ getGlobalIndex s'.front x)
    (h2 : getGlobalIndex s'.front x < s'.front.numGlobalVars) (v : Value) :
    getGlobal s'.front.numGlobalVars t (getGlobalIndex s'.front x) = .ub ∧ setGlobal s'.front.numGlobalVars t (getGlobalIndex s'.front x) v = .ub := by
  have h0 : 0 ≤ getGlobalIndex s'.front x := by omega
  constructor
  · rw [getGlobal, index_ok ⟨h0, h2⟩, Res.bind_ok, List.getElem?_eq_none (by omega)]
  · rw [setGlobal, index_ok ⟨h0, h2⟩, Res.bind_ok, if_neg (by omega)]

/-! ## Examples -/

namespace Session1

theorem indexX : getGlobalIndex s4.front nameX = 0 := by decide +kernel

example : getGlobalIndex s4.front (bytes "y") = -1 := by decide +kernel

/-- `c63_run`: the host reads 6. -/
example : (∃ fuel, run env fuel (startThread 2) = .limit) ∨ MeetsCycle env (startThread 2) ∨
    ∃ fuel t, run env fuel (startThread 2) = .ok t ∧ getGlobal 2 t (getGlobalIndex s4.front nameX) = .ok (.int 6#64) := by
  rcases c63_run setup session (by simp) machine foreignOk meaning with h | h | ⟨fuel, t, h1, h2⟩
  · exact .inl h
  · exact .inr (.inl h)
  · exact .inr (.inr ⟨fuel, t, h1, h2 nameX _ (by rw [indexX]; decide) (by rw [indexX]; rfl)⟩)

/-- `c63_stays`, `c63_named`: from the first source on; for the name in a third one. -/
example : getGlobalIndex s4.front nameX = 0 ∧ ∃ t, symInfo s4.front (.glob 1) = .ok (.glob 0, t) ∧
    referenceVariable nameX s4.front = .ok (some (.glob 1)) s4.front :=
  ⟨indexX, some .int, rfl, rfl⟩

end Session1

namespace HostGlobalExample

/-- What the host gets: it sets `x` to 7 and calls `f`. -/
def sees (text : String) : Option (Res Value) :=
  match compileAll [text] {} with
  | some ([true], s) => some (do
    let t ← run (plainEnv s.program s.functionPcs 0) 100 (startThread s.front.numGlobalVars)
    let t ← setGlobal s.front.numGlobalVars t (getGlobalIndex s.front (bytes "x")) (.int 7#64)
    let (_, t) ← callFunction (plainEnv s.program s.functionPcs 0) 100 t 0 []
    getGlobal s.front.numGlobalVars t (getGlobalIndex s.front (bytes "y")))
  | _ => none

example : sees "x := 1 y := 2 func f() { y = x + x }" = some (.ok (.int 14#64)) := by decide +kernel

/-- `c63_defect_later`: the thread is started, then the second source is compiled. -/
def later (a b : String) : Option (Res Value) :=
  match compileAll [a] {}, compileAll [a, b] {} with
  | some ([true], s), some ([true, true], s') => some (getGlobal s'.front.numGlobalVars (startThread s.front.numGlobalVars) (getGlobalIndex s'.front (bytes "y")))
  | _, _ => none

example : later "x := 1" "y := 2" = some .ub := by decide +kernel

end HostGlobalExample

end Tiny
