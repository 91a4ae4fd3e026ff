import Verif.Proofs.DelegateText
import Verif.Proofs.JsonBind

/-!
# Compiling the functions which the macro `delegate` writes
-/

namespace Tiny
open Spec

/-- A source which is one function with one statement, and whose strings can be registered. -/
theorem compile_source {E : CompileEnv} {f0 : Front} {L : Name → Prop} (hm : ¬ TooMany f0 L) {s : TState} (hT : Tables s.front)
    (hc : s.front.currFunc = .none) (hn : s.nest < maxNest) {src : List UInt8} (hz : 0 ∉ src) {toks : List (Token × Nat)} {e : Nat} (hlines : LinesIs 1 src toks e)
    {l m : Nat} {n : Name} {qs : List (Name × SType)} {ps : List (Name × Tag)} {q : Option SType} {r : Option Tag} {b : SStmt} {b' : CStmt} {y : Stmt} {σ : List (List UInt8)}
    (hp : ∀ {us : List Tk} {nx : Tk}, AreToks E.strtod us toks → nx.kind = .eofTok → ProgIs [.node l (.proc () n qs q (.node m (.block [b])))] us nx)
    (hps : ParamsMean s.front qs ps) (hr : ResultMeans s.front q r) (hd : (ps.map Prod.fst).Nodup)
    (hb : nameStmt frontOps b (lineIn s.front n ps (r.getD .void)) = .ok b' { lineIn s.front n ps (r.getD .void) with strings := σ })
    (hy : resolveS b' { lineAfter s.front n ps (r.getD .void) σ with currFunc := .at s.front.syms.length } =
      .ok y { lineAfter s.front n ps (r.getD .void) σ with currFunc := .at s.front.syms.length })
    (ha : assigned (some s.front.numFunctions) y = [])
    (hg : ∀ F, s.front.numFunctions < F → GenS (globalsOf (lineAfter s.front n ps (r.getD .void) σ)) F y)
    (hf : FitS (globalsOf (lineAfter s.front n ps (r.getD .void) σ)) y) {file : Name} (hL : L file) (hR : Room L f0.strings σ) :
    ∃ N s' ρ us nx rest, sourceTokens E.strtod src = us ++ nx :: rest ∧ ProgIs [.node l (.proc () n qs q (.node m (.block [b])))] us nx ∧
      (∀ k, N ≤ k → compileString { E with fuel := k } (some file) src s = .ok true s') ∧
      Session s s' [(lineAfter s.front n ps (r.getD .void) σ, [.node l (.proc s.front.numFunctions ps.length 0 (.node m (.block [y])))])] ∧
      s'.front = lineAfter s.front n ps (r.getD .void) (σ ++ ρ) ∧ Room L f0.strings (σ ++ ρ) ∧ s'.nest = s.nest ∧ Tables s'.front := by
  obtain ⟨us, nx, rest, k1, k2, k3, k4⟩ := source_lines (strtod := E.strtod) hz hlines
  have htail := Session1.tail_of hz k4
  have hfile : FileFits σ (some file) := by
    intro n e
    cases e
    exact hR.fits hm hL
  obtain ⟨N, s', ρ, c1, c7, c2, c3, c4, c5, c6⟩ := compile_line (E := E) (file := some file) (k1 ▸ htail) hT hc hn (hp k3 k2) hps hr hd hb (fun _ => hy)
    ha hg hf hfile
  refine ⟨N, s', ρ, us, nx, rest, k1, hp k3 k2, ?_, c7, c2, ?_, c5, c6⟩
  · intro k hk
    unfold compileString
    rw [show sourceTokens ({ E with fuel := k } : CompileEnv).strtod _ = _ from k1]
    exact c1 k hk
  · obtain ⟨τ, e, d1, d2⟩ := hR
    rcases ρ with _ | ⟨y1, _ | ⟨y2, ρ⟩⟩
    · rw [List.append_nil]
      exact ⟨τ, e, d1, d2⟩
    · obtain ⟨g1, g2⟩ := c4 y1 (by simp)
      cases g1
      rw [e, List.mem_append, not_or] at g2
      refine ⟨τ ++ [file], by rw [e, List.append_assoc], List.nodup_append.2 ⟨d1, by simp, ?_⟩, ?_⟩
      · intro a ha b hb
        simp only [List.mem_singleton] at hb
        exact fun e => g2.2 (hb ▸ e ▸ ha)
      · intro y hy
        simp only [List.mem_append, List.mem_singleton] at hy
        rcases hy with hy | rfl
        · exact d2 y hy
        · exact ⟨g2.1, hL⟩
    · simp at c3

/-! ## Passing the arguments on -/

/-- With names. -/
def passedRef : Nat → List (Name × Tag) → List CExpr
  | _, [] => []
  | i, p :: ps => .id p.1 (some (.arg i)) :: passedRef (i + 1) ps

/-- With types. -/
def passed (N : Nat) : Nat → List (Name × Tag) → List Expr
  | _, [] => []
  | i, p :: ps => .id p.1 (some (.loc (-(N : Int) + i))) :: passed N (i + 1) ps

theorem passed_length (N : Nat) : ∀ (i : Nat) (ps : List (Name × Tag)), (passed N i ps).length = ps.length
  | _, [] => rfl
  | i, p :: ps => by simp [passed, passed_length N (i + 1) ps]

theorem name_passed {f : Front} : ∀ (ps : List (Name × Tag)) (i : Nat), (∀ k p, ps[k]? = some p → referenceVariable p.1 f = .ok (some (.arg (i + k))) f) →
    nameExprs frontOps (ps.map fun p => .id p.1 ()) f = .ok (passedRef i ps) f
  | [], i, _ => by rw [List.map_nil, nameExprs]; rfl
  | p :: ps, i, h => by
    have h1 := h 0 p rfl
    have h2 := name_passed ps (i + 1) fun k q hk => by
      have := h (k + 1) q (by simpa using hk)
      rwa [show i + (k + 1) = i + 1 + k by omega] at this
    rw [List.map_cons, nameExprs, nameExpr]
    simp only [Act.bind_apply, show frontOps.ref p.1 f = _ from h1, h2, act_pure_ok, passedRef, Nat.add_zero]

theorem ref_param {f : Front} {n : Name} {ps : List (Name × Tag)} {r : Tag} (hd : (ps.map Prod.fst).Nodup) {k : Nat} {p : Name × Tag} (hk : ps[k]? = some p) :
    referenceVariable p.1 (lineIn f n ps r) = .ok (some (.arg k)) (lineIn f n ps r) := by
  have e : currentFunc (lineIn f n ps r) = .ok (some (lineFunc f n ps r)) (lineIn f n ps r) := by
    unfold currentFunc
    simp [lineIn]
  obtain ⟨hlt, hk'⟩ := List.getElem?_eq_some_iff.1 hk
  have hi : (lineArgs ps.length 0 ps).findIdx? (fun v => v.name == p.1) = some k := by
    rw [List.findIdx?_eq_some_iff_getElem]
    have hg : ∀ j (hj : j < (lineArgs ps.length 0 ps).length) (hj' : j < ps.length), (lineArgs ps.length 0 ps)[j].name = ps[j].1 := by
      intro j hj hj'
      have := lineArgs_get ps.length ps 0 j
      rw [List.getElem?_eq_getElem hj, List.getElem?_eq_getElem hj'] at this
      simp only [Option.map_some, Option.some.injEq] at this
      rw [this]
    have hlt2 : k < (lineArgs ps.length 0 ps).length := by rw [lineArgs_length]; exact hlt
    refine ⟨hlt2, ?_, ?_⟩
    · rw [hg k hlt2 hlt, hk']
      simp
    · intro j hj
      have hj2 : j < ps.length := by omega
      rw [hg j (by omega) hj2]
      simp only [Bool.not_eq_true, beq_eq_false_iff_ne, ne_eq]
      intro e2
      have h1 : (ps.map Prod.fst)[j]'(by simpa using hj2) = (ps.map Prod.fst)[k]'(by simpa using hlt) := by
        simp only [List.getElem_map, hk', e2]
      have := (List.Nodup.getElem_inj_iff hd).1 h1
      omega
  unfold referenceVariable
  rw [Act.bind_apply, e]
  simp [lineFunc, lookupFunc, hi, act_pure_ok]

theorem info_param {f : Front} {n : Name} {ps : List (Name × Tag)} {r : Tag} {σ : List (List UInt8)} {k : Nat} {p : Name × Tag} (hk : ps[k]? = some p) :
    symInfo { lineAfter f n ps r σ with currFunc := .at f.syms.length } (.arg k) = .ok (.loc (-(ps.length : Int) + k), some p.2) := by
  unfold symInfo
  have := lineArgs_get ps.length ps 0 k
  rw [hk] at this
  simp [lineAfter, lineFunc, this]

theorem resolve_passed {f : Front} {N : Nat} : ∀ (ps : List (Name × Tag)) (i : Nat), (∀ k p, ps[k]? = some p → symInfo f (.arg (i + k)) = .ok (.loc (-(N : Int) + (i + k : Nat)), some p.2)) →
    resolveArgs f true [] (passedRef i ps) = .ok (passed N i ps)
  | [], i, _ => by rw [passedRef, passed, resolveArgs]
  | p :: ps, i, h => by
    have h1 := h 0 p rfl
    have h2 := resolve_passed (f := f) (N := N) ps (i + 1) fun k q hk => by
      have := h (k + 1) q (by simpa using hk)
      rwa [show i + (k + 1) = i + 1 + k by omega] at this
    have hid : resolveE f (.id p.1 (some (.arg i))) = .ok (.id p.1 (some (.loc (-(N : Int) + i))), p.2) := by
      rw [resolveE]
      unfold resolveId
      simp only [Nat.add_zero] at h1
      simp only [h1]
    rw [passedRef, resolveArgs, hid, Chk.ok_bind]
    simp only
    rw [show checkArg true p.2 [] = .ok [] from rfl, Chk.ok_bind, h2]
    rfl

/-- `call_function(f, a0, ...)` -/
theorem resolve_callf {f : Front} {D : Tag} (hD : D ≠ .void) {ps : List (Name × Tag)} {N : Nat} {i : Nat}
    (hf : referenceFunction f.syms (bytes "call_function") = some (.foreign (bytes "call_function") i [.any] true .any))
    (h : ∀ k p, ((bytes "f", D) :: ps)[k]? = some p → symInfo f (.arg k) = .ok (.loc (-(N : Int) + (k : Nat)), some p.2)) :
    resolveE f (.call (bytes "call_function") (passedRef 0 ((bytes "f", D) :: ps))) = .ok (.call (bytes "call_function") (passed N 0 ((bytes "f", D) :: ps)), .any) := by
  have h1 := h 0 _ rfl
  have h2 := resolve_passed (f := f) (N := N) ps 1 fun k q hk => by
    have := h (k + 1) q (by simpa using hk)
    rwa [Nat.add_comm k 1] at this
  have hid : resolveE f (.id (bytes "f") (some (.arg 0))) = .ok (.id (bytes "f") (some (.loc (-(N : Int) + (0 : Nat)))), D) := by
    rw [resolveE]
    unfold resolveId
    simp only [h1]
  rw [resolveE, hf]
  simp only [Sym.sig, List.map_cons, List.map_nil]
  have : resolveArgs f true [some .any] (passedRef 0 ((bytes "f", D) :: ps)) = .ok (passed N 0 ((bytes "f", D) :: ps)) := by
    rw [passedRef, resolveArgs, hid, Chk.ok_bind]
    simp only
    rw [show checkArg true D [some .any] = .ok [] by unfold checkArg; simp [isTagAssignableTo, hD], Chk.ok_bind, h2]
    rfl
  rw [this]
  rfl

theorem gen_passed (g : Globals) (N : Nat) : ∀ (ps : List (Name × Tag)) (i : Nat), GenEs g (passed N i ps) ∧ FitEs g (passed N i ps)
  | [], i => by simp [passed, GenEs, FitEs]
  | p :: ps, i => by
    obtain ⟨h1, h2⟩ := gen_passed g N ps (i + 1)
    simp only [passed, GenEs, FitEs, GenE, FitE]
    exact ⟨⟨trivial, h1⟩, rfl, h2⟩

/-! ## Evaluating them -/

theorem eval_passed {c : Ctx} {N : Nat} {vs : List Value} (hN : vs.length = N) (w : World) : ∀ (ps : List (Name × Tag)) (i n : Nat), i + ps.length = N → ps.length + 1 < n →
    evalList c n (passed N i ps) ⟨vs, []⟩ w = .ok (vs.drop i, w)
  | [], i, n, h, hn => by
    obtain ⟨n, rfl⟩ : ∃ j, n = j + 1 := ⟨n - 1, by omega⟩
    simp only [List.length_nil, Nat.add_zero] at h
    rw [passed, evalList, List.drop_of_length_le (by omega)]
  | p :: ps, i, n, h, hn => by
    simp only [List.length_cons] at h hn
    obtain ⟨n, rfl⟩ : ∃ j, n = j + 2 := ⟨n - 2, by omega⟩
    have hlt : i < vs.length := by omega
    have hg : evalE c (n + 1) (.id p.1 (some (.loc (-(N : Int) + i)))) ⟨vs, []⟩ w = .ok (vs[i], w) := by
      have e : Vars.get ⟨vs, []⟩ (-(N : Int) + i) = some vs[i] := by
        unfold Vars.get
        rw [if_neg (by omega), if_pos (by show (0 : Int) ≤ (vs.length : Int) + _; omega)]
        show vs[((vs.length : Int) + (-(N : Int) + i)).toNat]? = _
        rw [show ((vs.length : Int) + (-(N : Int) + i)).toNat = i by omega]
        exact List.getElem?_eq_getElem hlt
      simp only [evalE, readVar, e, known, Res.bind_ok]
    have h2 := eval_passed (c := c) hN w ps (i + 1) (n + 1) (by omega) (by omega)
    rw [passed, evalList]
    simp only [hg, Res.bind_ok, h2]
    rw [List.drop_eq_getElem_cons hlt]

end Tiny
