import Verif.Spec.Located
import Verif.Props.Spells
import Verif.Props.Session

/-!
# Lines of the sources: proofs
-/

namespace Tiny
open Spec

theorem filed_session {s0 s : TState} {qs : List (Option Name × Front × List Stmt)} (h : Filed s0 s qs) :
    Session s0 s (qs.map Prod.snd) := by
  induction h with
  | start => exact .start
  | call _ hk ih => exact .call ih hk
  | compile _ ht hp hm _ hr h ih1 ih2 =>
    rw [List.map_append, List.map_append]
    exact .compile ih1 ht hp hm ih2 hr h
  | fail _ ht hx h hc ih => exact .fail ih ht hx h hc

theorem session_filed {s0 s : TState} {ps : List (Front × List Stmt)} (h : Session s0 s ps) :
    ∃ qs : List (Option Name × Front × List Stmt), qs.map Prod.snd = ps ∧ Filed s0 s qs := by
  induction h with
  | start => exact ⟨[], rfl, .start⟩
  | call _ hk ih =>
    obtain ⟨qs, e, h⟩ := ih
    exact ⟨qs, e, .call h hk⟩
  | @compile _ _ _ _ _ _ E file _ _ _ ss f _ ht hp hm _ hr h ih1 ih2 =>
    obtain ⟨qs, rfl, k1⟩ := ih1
    obtain ⟨qs', rfl, k2⟩ := ih2
    exact ⟨qs ++ qs' ++ [(file, f, ss)], by simp, .compile k1 ht hp hm k2 hr h⟩
  | fail _ ht hx h hc ih =>
    obtain ⟨qs, e, k⟩ := ih
    exact ⟨qs, e, .fail k ht hx h hc⟩

/-! ## The file of a source -/

theorem file_more {f f' : Front} {n : Option Name} {i : Option Nat} (h : FileIs f n i) (hs : f.strings <+: f'.strings) : FileIs f' n i := by
  cases n with
  | none => exact h
  | some n =>
    obtain ⟨k, rfl, h⟩ := h
    exact ⟨k, rfl, prefix_get hs h⟩

theorem file_idx {file : Option Name} {ss : List Stmt} {s s' : TState} {i : Option Nat} (h : fileIndex file ss s = .ok i s')
    (hn : ss.any isNode = true) : FileIs s'.front file i := by
  unfold fileIndex at h
  cases file with
  | none => cases h; rfl
  | some n =>
    simp only at h
    rw [if_pos hn] at h
    obtain ⟨k, s1, h1, h⟩ := Act.ok_inv h
    cases h
    unfold onFront at h1
    cases hr : registerString n s.front with
    | ok k' f =>
      rw [hr] at h1
      cases h1
      refine ⟨_, rfl, ?_⟩
      unfold registerString at hr
      split at hr
      · next hx =>
        cases hr
        obtain ⟨hlt, e, -⟩ := List.findIdx?_eq_some_iff_getElem.1 hx
        simp only
        rw [List.getElem?_eq_getElem hlt]
        simpa using e
      · split at hr
        · cases hr; simp
        · cases hr
    | _ => rw [hr] at h1; cases h1

theorem rest_lines {first last : Nat} {file : Option Name} {xs : List CStmt} {t u : TState} {ss : List Stmt} {f : Front}
    (hr : resolveSs xs t.front = .ok ss f) (h : restPhases first last file xs t = .ok () u) :
    ∃ i c, compileState (globalsOf f) (f.numFunctions - t.functionPcs.length) ss ⟨t.program, t.lines, i, t.functionPcs⟩ = .ok () c ∧
    u.program = c.program ∧ u.functionPcs = c.functionPcs ∧ u.lines = c.lines ∧ (ss.any isNode = true → FileIs u.front file i) := by
  unfold restPhases at h
  obtain ⟨_, t1, h1, h'⟩ := Act.ok_inv (x := checkStructs first last) h
  clear h
  have : t1 = t := by
    unfold checkStructs at h1
    obtain ⟨g, t2, h2, h1⟩ := Act.ok_inv (x := Act.get) h1
    cases h2
    split at h1 <;> cases h1
    rfl
  subst this
  obtain ⟨ss1, t2, h2, h⟩ := Act.ok_inv (x := compileTree file xs) h'
  obtain ⟨_, t3, h3, h⟩ := Act.ok_inv (x := markAll ss1) h
  cases h3
  cases checkInit_inv h
  clear h
  unfold compileTree at h2
  obtain ⟨_, t4, h4, h2⟩ := Act.ok_inv (x := dropHalt) h2
  cases h4
  obtain ⟨ss2, t5, h5, h2⟩ := Act.ok_inv (x := onFront (resolveSs xs)) h2
  simp only [onFront, hr] at h5
  cases h5
  obtain ⟨_, t6, h6, h2⟩ := Act.ok_inv (x := reallocTables) h2
  cases h6
  obtain ⟨i, t7, h7, h2⟩ := Act.ok_inv (x := fileIndex file _) h2
  have hi := file_idx h7
  obtain ⟨f2, rfl, e1, -, e2, e3, e4⟩ := file_inv h7
  obtain ⟨g, t8, h8, h2⟩ := Act.ok_inv (x := Act.get) h2
  cases h8
  obtain ⟨_, t9, h9, h2⟩ := Act.ok_inv (x := onCode i _) h2
  cases h2
  simp only at e1 e2 e3 e4
  have eg : globalsOf f2 = globalsOf f := by unfold globalsOf; rw [e1]
  unfold onCode at h9
  simp only at h9
  rw [eg] at h9
  split at h9
  · next c hc =>
    cases h9
    refine ⟨i, c, ?_, rfl, rfl, rfl, fun hn => ?_⟩
    · exact hc
    · exact file_more (hi hn) (List.prefix_refl _)
  all_goals cases h9

/-! ## The invariant -/

/-- The statements of the sources. -/
def stmtsOf (qs : List (Option Name × Front × List Stmt)) : List Stmt := qs.flatMap fun q => q.2.2

theorem stmtsOf_program (qs : List (Option Name × Front × List Stmt)) : stmtsOf qs = program (qs.map Prod.snd) := by
  simp [stmtsOf, program, List.flatMap_map]

/-- The table of lines of a state. -/
structure LInv (s : TState) (qs : List (Option Name × Front × List Stmt)) (L : List (LineRec × Stmt)) : Prop where
  recs : List.Forall₂ (RecordOf s.front) L (writtenLines qs)
  sorted : L.Pairwise (fun x y => x.1.pc ≤ y.1.pc)
  below : ∀ x ∈ L, x.1.pc ≤ (body s.program).length
  lines : s.lines = (L.map Prod.fst).foldl addRecord []
  first : ∀ x, L.head? = some x → x.1.pc = 0
  empty : L = [] → body s.program = []
  code : ∀ (P : List UInt8) (fp : Nat → Option Nat), (∀ k, k < (body s.program).length → P[k]? = s.program[k]?) →
    (∀ i x, i ∈ idsL (stmtsOf qs) → s.functionPcs[i]? = some x → fp i = some x) →
    ∀ x ∈ L, CodeOf (globalsOf s.front) fp P x.1.pc x.2

theorem LInv.new (f : Front) : LInv { front := f } [] [] where
  recs := .nil
  sorted := .nil
  below := by simp
  lines := rfl
  first := by simp
  empty := fun _ => rfl
  code := by simp

theorem record_more {f f' : Front} {x : LineRec × Stmt} {y : Option Name × Nat × Stmt} (h : RecordOf f x y)
    (hs : f.strings <+: f'.strings) : RecordOf f' x y := ⟨file_more h.1 hs, h.2⟩

theorem forall2_imp {α β : Type} {R S : α → β → Prop} (H : ∀ a b, R a b → S a b) {l : List α} {m : List β} (h : List.Forall₂ R l m) :
    List.Forall₂ S l m := by
  induction h with
  | nil => exact .nil
  | cons a _ ih => exact .cons (H _ _ a) ih

theorem CodeOf.globals {g g' : Globals} {fp : Nat → Option Nat} {P : List UInt8} {pos : Nat} {st : Stmt} (h : CodeOf g fp P pos st)
    (hg : GlobalsLe g g') : CodeOf g' fp P pos st := by
  obtain ⟨b, c, a, fin, h⟩ := h
  exact ⟨b, c, a, fin, h.globals hg⟩

/-- The symbol table has changed, not the code. -/
theorem LInv.step {s s' : TState} {qs : List (Option Name × Front × List Stmt)} {L : List (LineRec × Stmt)} (h : LInv s qs L)
    (hg : GlobalsLe (globalsOf s.front) (globalsOf s'.front)) (hs : s.front.strings <+: s'.front.strings)
    (h1 : s'.program = s.program) (h2 : s'.functionPcs = s.functionPcs) (h3 : s'.lines = s.lines) : LInv s' qs L where
  recs := forall2_imp (fun _ _ k => record_more k hs) h.recs
  sorted := h.sorted
  below := by rw [h1]; exact h.below
  lines := by rw [h3]; exact h.lines
  first := h.first
  empty := by rw [h1]; exact h.empty
  code := fun P fp hP hfp x hx => by
    rw [h1] at hP
    rw [h2] at hfp
    exact (h.code P fp hP hfp x hx).globals hg

theorem writtenLines_append (qs qs' : List (Option Name × Front × List Stmt)) :
    writtenLines (qs ++ qs') = writtenLines qs ++ writtenLines qs' := by simp [writtenLines]

theorem no_nodes {ss : List Stmt} (hnode : ∀ st ∈ ss, IsNode st ∨ st = .block []) (h : ss.any isNode ≠ true) : statementsL ss = [] := by
  induction ss with
  | nil => rfl
  | cons s ss ih =>
    rcases hnode s (by simp) with ⟨line, st, rfl⟩ | rfl
    · simp [isNode] at h
    · have := ih (fun st hst => hnode st (by simp [hst])) (by simpa [isNode] using h)
      simp [statementsL, statements, this]

/-- After compiling a source. -/
theorem LInv.compiled {t u : TState} {qs : List (Option Name × Front × List Stmt)} {L : List (LineRec × Stmt)} (h : LInv t qs L)
    {file : Option Name} {f : Front} {ss : List Stmt} {k : Nat} {i : Option Nat} {c : CS}
    (hc : compileState (globalsOf f) k ss ⟨t.program, t.lines, i, t.functionPcs⟩ = .ok () c)
    (e1 : u.program = c.program) (e2 : u.functionPcs = c.functionPcs) (e3 : u.lines = c.lines)
    (hi : ss.any isNode = true → FileIs u.front file i) (hs : t.front.strings <+: u.front.strings)
    (hg : GlobalsLe (globalsOf t.front) (globalsOf u.front)) (hg' : GlobalsLe (globalsOf f) (globalsOf u.front))
    (hz : u.program.length ≤ 2 ^ 32) (hnd : (idsL (stmtsOf qs ++ ss)).Nodup)
    (hnode : ∀ st ∈ ss, IsNode st ∨ st = .block []) : ∃ L', LInv u (qs ++ [(file, f, ss)]) L' := by
  have hnd' : (idsL ss).Nodup ∧ ∀ i ∈ idsL (stmtsOf qs), i ∉ idsL ss := by
    simp only [idsL, procsL_append, List.map_append] at hnd ⊢
    have := List.nodup_append.1 hnd
    exact ⟨this.2.1, fun i hi hi' => this.2.2 i hi i hi' rfl⟩
  obtain ⟨l, l1, l2, l3, l4, l5, l6, l7, l8, l9⟩ := compileState_logs hc (by rw [← e1]; exact hz) hnd'.1
  simp only [CS.log, Prod.mk.injEq] at l3 l4 l5 l6 l7 l8
  obtain ⟨l3, l3'⟩ := l3 hnode
  rw [← e1] at l3' l5 l6 l7 l9
  rw [← e2] at l8 l9
  have mem : ∀ x ∈ l, x.2 ∈ statementsL ss := fun x hx => by rw [← l1]; exact List.mem_map_of_mem hx
  have hfile : ∀ x ∈ l, FileIs u.front file i := fun x hx => by
    by_cases hn : ss.any isNode = true
    · exact hi hn
    · have := mem x hx
      rw [no_nodes hnode hn] at this
      cases this
  refine ⟨L ++ l.map (fun x => (⟨x.1, i, x.2.1⟩, x.2.2)), ?_, ?_, ?_, ?_, ?_, ?_, ?_⟩
  · rw [writtenLines_append]
    refine List.rel_append (forall2_imp (fun _ _ k => record_more k hs) h.recs) ?_
    have e : writtenLines [(file, f, ss)] = (l.map Prod.snd).map fun x => (file, x.1, x.2) := by simp [writtenLines, l1]
    rw [e]
    have key : ∀ l : List (Nat × Nat × Stmt), (∀ x ∈ l, FileIs u.front file i) →
        List.Forall₂ (RecordOf u.front) (l.map fun x => (⟨x.1, i, x.2.1⟩, x.2.2)) ((l.map Prod.snd).map fun x => (file, x.1, x.2)) := by
      intro l hl
      induction l with
      | nil => exact .nil
      | cons x l ih => exact .cons ⟨hl x (by simp), rfl, rfl⟩ (ih fun y hy => hl y (by simp [hy]))
    exact key l hfile
  · rw [List.pairwise_append]
    refine ⟨h.sorted, by rw [List.pairwise_map]; exact l2, fun x hx y hy => ?_⟩
    obtain ⟨z, hz, rfl⟩ := List.mem_map.1 hy
    exact Nat.le_trans (h.below x hx) (l5 z hz).1
  · intro x hx
    rcases List.mem_append.1 hx with hx | hx
    · exact Nat.le_trans (h.below x hx) l7
    · obtain ⟨z, hz, rfl⟩ := List.mem_map.1 hx
      exact (l5 z hz).2
  · rw [e3, l4.1, List.map_append, List.foldl_append, ← h.lines]
    simp only [List.map_map, addLog, List.foldl_map]
    rfl
  · intro x hx
    cases L with
    | nil =>
      simp only [List.nil_append, List.head?_map, Option.map_eq_some_iff] at hx
      obtain ⟨y, hy, rfl⟩ := hx
      have := l3 y hy
      rw [h.empty rfl] at this
      exact this
    | cons y L =>
      simp only [List.cons_append, List.head?_cons, Option.some.injEq] at hx
      subst hx
      exact h.first _ rfl
  · intro e
    obtain ⟨rfl, e⟩ := List.append_eq_nil_iff.1 e
    rw [l3' (List.map_eq_nil_iff.1 e), h.empty rfl]
  · intro P fp hP hfp x hx
    have ids : ∀ i, i ∈ idsL (stmtsOf (qs ++ [(file, f, ss)])) ↔ i ∈ idsL (stmtsOf qs) ∨ i ∈ idsL ss := fun i => by
      simp [stmtsOf, idsL, procsL_append]
    rcases List.mem_append.1 hx with hx | hx
    · refine (h.code P fp (fun k hk => ?_) (fun i x hi hx => ?_) x hx).globals hg
      · rw [hP k (by omega), l6 k hk]
      · exact hfp i x ((ids i).2 (.inl hi)) (l8 i x (hnd'.2 i hi) hx)
    · obtain ⟨z, hz, rfl⟩ := List.mem_map.1 hx
      exact (l9 P fp hP (fun i x hi hx => hfp i x ((ids i).2 (.inr hi)) hx) z hz).globals hg'

/-- Statements of a source are nodes or struct definitions. -/
theorem prog_nodes {tree : List SStmt} {us : List Tk} {nx : Tk} (h : ProgIs tree us nx) {f : Front} {c : Option Nat} {ss : List Stmt}
    (hs : SpellsSs f c tree ss) : ∀ st ∈ ss, IsNode st ∨ st = .block [] := by
  have H : ∀ x ∈ tree, (∃ line s, x = .node line s) ∨ ∃ n fs, x = .struct n fs := by
    clear hs
    induction h with
    | nil => simp
    | stmt h _ ih =>
      intro x hx
      rcases List.mem_cons.1 hx with rfl | hx
      · left
        cases h <;> exact ⟨_, _, rfl⟩
      · exact ih x hx
    | struct _ _ _ _ _ _ ih =>
      intro x hx
      rcases List.mem_cons.1 hx with rfl | hx
      · exact .inr ⟨_, _, rfl⟩
      · exact ih x hx
  clear h
  induction ss generalizing tree with
  | nil => simp
  | cons s ss ih =>
    cases hs with
    | cons a b =>
      intro st hst
      rcases List.mem_cons.1 hst with rfl | hst
      · rcases H _ (List.mem_cons_self ..) with ⟨line, s, rfl⟩ | ⟨n, fs, rfl⟩
        · cases a
          exact .inl ⟨_, _, rfl⟩
        · cases a
          exact .inr rfl
      · exact ih (tree := _) b (fun x hx => H x (List.mem_cons_of_mem _ hx)) st hst

/-- **The invariant holds after every session.** -/
theorem filed_lines {s0 s : TState} {qs : List (Option Name × Front × List Stmt)} (h : Filed s0 s qs) :
    ∀ qs0 pend, Inv s0 (qs0.map Prod.snd) pend → (s0.program.length ≤ 2 ^ 32 → ∃ L, LInv s0 qs0 L) →
      s.program.length ≤ 2 ^ 32 → ∃ L, LInv s (qs0 ++ qs) L := by
  induction h with
  | start => intro qs0 pend _ hl hz; simpa using hl hz
  | @call s0 s f qs h1 hk ih =>
    intro qs0 pend h0 hl hz
    obtain ⟨L, k⟩ := ih qs0 pend h0 hl hz
    have hk := hostCall_keeps hk
    exact ⟨L, k.step (s' := { s with front := f }) (globals_le hk.le) hk.strings rfl rfl rfl⟩
  | @fail s0 s s' qs E file ts h1 ht hx hc hcur ih =>
    intro qs0 pend h0 hl hz
    obtain ⟨e1, e2, -, e3⟩ := c32_exact hc hx
    obtain ⟨L, k⟩ := ih qs0 pend h0 hl (by rw [← e1]; exact hz)
    have I := session_inv (filed_session h1) _ pend h0
    rw [compile_noUse fun xs q e => (hx xs q e).1] at hc
    obtain ⟨a, -, -, -, -⟩ := compile_cases (quiet_keeps E) ht I.tables I.cur hc
    exact ⟨L, k.step (globals_le a.syms) a.strings e1 e2 e3⟩
  | @compile s0 s t s' qs qs' E file ts xs q ss f hs1 ht hp hm hs2 hr h ih1 ih2 =>
    intro qs0 pend h0 hl hz
    have i1 := session_inv (filed_session hs1) _ pend h0
    have pp := parse_parsed ht i1.tables i1.cur hp
    obtain ⟨a2, b2, c2, d2⟩ := session_keeps (filed_session hs2) pp.tables pp.cur
    have i3 := session_inv (filed_session (Filed.compile hs1 ht hp hm hs2 hr h)) _ pend h0
    obtain ⟨us, nx, rest, tree, -, -, g3, g4⟩ := source_spelled i1.tables i1.cur ht hp hm (filed_session hs2) hr h
    obtain ⟨u, h1, rfl⟩ := compile_inv hp hm h
    have R := rest_inv hr h1
    obtain ⟨-, -, r3, -⟩ := rest_front hr h1
    obtain ⟨i, c, hcode, e1, e2, e3, hi⟩ := rest_lines hr h1
    have kl := resolveSs_has xs c2 pp.own hr
    have hlen : t.program.length ≤ u.program.length := by
      have := compileState_len hcode
      simp only at this
      have := body_len t.program
      rw [e1]
      omega
    have b2 : s.program.length ≤ t.program.length := b2
    have hz : u.program.length ≤ 2 ^ 32 := hz
    have j1 : ∃ L, LInv s (qs0 ++ qs) L := ih1 qs0 pend h0 hl (by omega)
    have i2 := i1.parsed ht hp (s.nest + 1)
    rw [← List.map_append] at i2
    obtain ⟨L, j2⟩ := ih2 (qs0 ++ qs) _ i2 (fun _ => by
      obtain ⟨L, j1⟩ := j1
      exact ⟨L, j1.step (globals_le (keeps_le pp.keeps)) pp.keeps.strings rfl rfl rfl⟩) (by omega)
    have le := frontLe_mark R.syms
    have eg : globalsOf f = globalsOf t.front := like_globals kl.like
    have es : t.front.strings = f.strings := by rw [show f.strings = t.front.strings from (congrArg Front.strings kl.like).symm]
    have nd := i3.nodup
    rw [← List.map_append, ← stmtsOf_program] at nd
    have e : stmtsOf (qs0 ++ (qs ++ qs' ++ [(file, f, ss)])) = stmtsOf (qs0 ++ qs ++ qs') ++ ss := by simp [stmtsOf]
    rw [e] at nd
    obtain ⟨L', j3⟩ := j2.compiled (file := file) hcode e1 e2 e3 hi (by rw [es]; exact r3) (by rw [← eg]; exact globals_le le)
      (globals_le le) hz nd (prog_nodes g3 g4)
    have e' : qs0 ++ (qs ++ qs' ++ [(file, f, ss)]) = qs0 ++ qs ++ qs' ++ [(file, f, ss)] := by simp
    rw [e']
    exact ⟨L', j3.step (s' := { u with nest := u.nest - 1 }) ⟨fun _ _ h => h, fun _ _ h => h⟩ (List.prefix_refl _) rfl rfl rfl⟩

end Tiny
