import Verif.Proofs.Located
import Verif.Props.SessionExamples

/-!
# C65: the lines reported are those of the text
-/

namespace Tiny
open Spec

/-- **C65, table.** In every state a host can reach: each statement of the sources has an address, where its code starts; and the
file and line reported for an address are those of the last statement which starts at or before it. Failed compilations, macros
which compile sources, and struct definitions do not matter. -/
theorem c65_lines {f0 : Front} (h0 : Setup f0) {s : TState} {qs : List (Option Name × Front × List Stmt)}
    (hs : Filed { front := f0 } s qs) (hl : s.program.length ≤ 2 ^ 32) : Located s qs := by
  obtain ⟨L, k⟩ := filed_lines hs [] [] (session_start h0 .start) (fun _ => ⟨[], .new f0⟩) hl
  rw [List.nil_append] at k
  have hp : (L.map Prod.fst).Pairwise (fun x y => x.pc ≤ y.pc) := by rw [List.pairwise_map]; exact k.sorted
  refine ⟨by rw [k.lines]; exact (c28_table _ hp 0).1, L, k.recs, k.sorted, k.code _ _ (fun _ _ => rfl) (fun _ _ _ h => h), fun q => ?_⟩
  rw [k.lines, (c28_table _ hp q).2, if_neg (by omega)]
  have : (List.filter (fun x => decide ((x.pc : Int) ≤ (q : Int))) (L.map Prod.fst)).getLast? =
      (L.filter (fun x => x.1.pc ≤ q)).getLast?.map Prod.fst := by
    rw [List.filter_map, List.getLast?_map]
    simp [Function.comp_def]
  rw [this]
  cases hx : (L.filter (fun x => decide (x.1.pc ≤ q))).getLast? with
  | some x => rfl
  | none =>
    simp only [Option.map_none]
    cases L with
    | nil => rfl
    | cons x L =>
      have := k.first x rfl
      rw [List.getLast?_eq_none_iff, List.filter_eq_nil_iff] at hx
      have := hx x (by simp)
      simp only [decide_eq_true_eq] at this
      omega

mutual
theorem lines_spelled {f : Front} : ∀ {c : Option Nat} {s : SStmt} {s' : Stmt}, SpellsS f c s s' →
    List.Forall₂ (fun a b => a.1 = b.1 ∧ ∃ d, SpellsS f d a.2 b.2) (linesIn s) (statements s')
  | c, _, _, .node a => by
    rw [linesIn, statements]
    exact .cons ⟨rfl, c, a⟩ (lines_spelled a)
  | _, _, _, .call a _ => by simp [linesIn, statements]
  | _, _, _, .block a => by simpa [linesIn, statements] using lines_spelledL a
  | _, _, _, .assign o a b => by simp [linesIn, statements]
  | _, _, _, .other o a => by simp [linesIn, statements]
  | _, _, _, .proc w a => by simpa [linesIn, statements] using lines_spelled a
  | _, _, _, .ifThen a b => by simpa [linesIn, statements] using lines_spelled b
  | _, _, _, .ifElse a b c => by
    rw [linesIn, statements]
    exact List.rel_append (lines_spelled b) (lines_spelled c)
  | _, _, _, .while a b => by simpa [linesIn, statements] using lines_spelled b
  | _, _, _, .for a b c d => by
    rw [linesIn, statements]
    exact List.rel_append (List.rel_append (lines_spelled a) (lines_spelled d)) (lines_spelled c)
  | _, _, _, .retNone => by simp [linesIn, statements]
  | _, _, _, .ret a => by simp [linesIn, statements]
  | _, _, _, .brk => by simp [linesIn, statements]
  | _, _, _, .cont => by simp [linesIn, statements]
  | _, _, _, .use => by simp [linesIn, statements]
  | _, _, _, .struct => by simp [linesIn, statements, statementsL]
theorem lines_spelledL {f : Front} : ∀ {c : Option Nat} {ss : List SStmt} {ss' : List Stmt}, SpellsSs f c ss ss' →
    List.Forall₂ (fun a b => a.1 = b.1 ∧ ∃ d, SpellsS f d a.2 b.2) (linesInL ss) (statementsL ss')
  | _, _, _, .nil => by simp [linesInL, statementsL]
  | _, _, _, .cons a b => by
    rw [linesInL, statementsL]
    exact List.rel_append (lines_spelled a) (lines_spelledL b)
end

/-- **C65, source.** Compiling a source without error adds it, with its file name, to the end of the list; the statements with
lines which are listed for it are the ones of its text (whose lines are those of their tokens, C15, C45), one for one. -/
theorem c65_source {f0 : Front} (h0 : Setup f0) {s s' : TState} {qs : List (Option Name × Front × List Stmt)}
    (hs : Filed { front := f0 } s qs) {E : CompileEnv} {file : Option Name} {ts : List Tk} (ht : Tail3 ts)
    (hm : ∀ xs q t, parseProgram E.fuel ⟨ts, s.front⟩ = .ok xs q →
      useMacros E xs { s with nest := s.nest + 1, front := q.st } = .ok () t →
      ∃ qs', Filed { s with nest := s.nest + 1, front := q.st } t qs')
    (h : compileTokens E file ts s = .ok true s') :
    ∃ us nx rest tree ss qs' f, ts = us ++ nx :: rest ∧ nx.kind = .eofTok ∧ ProgIs tree us nx ∧
      List.Forall₂ (fun a b => a.1 = b.1 ∧ ∃ d, SpellsS s'.front d a.2 b.2) (linesInL tree) (statementsL ss) ∧
      Filed { front := f0 } s' (qs ++ qs' ++ [(file, f, ss)]) := by
  obtain ⟨xs, q, t, ss, f, h1, h2, h3⟩ := compile_true h
  obtain ⟨qs', hs'⟩ := hm xs q t h1 h2
  have I := session_start h0 (filed_session hs)
  obtain ⟨us, nx, rest, tree, g1, g2, g3, g4⟩ := source_spelled I.tables I.cur ht h1 h2 (filed_session hs') h3 h
  exact ⟨us, nx, rest, tree, ss, qs', f, g1, g2, g3, lines_spelledL g4, .compile hs ht h1 h2 hs' h3 h⟩

/-- **C65, sessions.** Every session is one with file names, and the other way round. -/
theorem c65_filed {s0 s : TState} {ps : List (Front × List Stmt)} :
    Session s0 s ps ↔ ∃ qs : List (Option Name × Front × List Stmt), qs.map Prod.snd = ps ∧ Filed s0 s qs :=
  ⟨session_filed, fun ⟨_, e, h⟩ => e ▸ filed_session h⟩

theorem last_filter {α : Type} (p : α → Bool) : ∀ (L : List α) (i : Nat) (hi : i < L.length), p L[i] = true →
    ∃ j, ∃ hj : j < L.length, i ≤ j ∧ p L[j] = true ∧ (L.filter p).getLast? = some L[j]
  | [], i, hi, _ => by simp at hi
  | a :: L, i, hi, hp => by
    cases hx : (L.filter p).getLast? with
    | none =>
      have hx := List.getLast?_eq_none_iff.1 hx
      have : i = 0 := by
        rcases i with _ | i
        · rfl
        · have hi2 : i < L.length := by simpa using hi
          have := List.filter_eq_nil_iff.1 hx L[i] (List.getElem_mem hi2)
          simp only [List.getElem_cons_succ] at hp
          exact absurd hp this
      subst this
      simp only [List.getElem_cons_zero] at hp
      exact ⟨0, hi, Nat.le_refl _, hp, by simp [hp, hx]⟩
    | some x =>
      have hm : x ∈ L.filter p := List.mem_of_getLast? hx
      have : ∃ i', ∃ hi' : i' < L.length, p L[i'] = true ∧ i ≤ i' + 1 := by
        rcases i with _ | i
        · obtain ⟨h1, h2⟩ := List.mem_filter.1 hm
          obtain ⟨i', hi', rfl⟩ := List.getElem_of_mem h1
          exact ⟨i', hi', h2, by omega⟩
        · exact ⟨i, by simpa using hi, by simpa using hp, Nat.le_refl _⟩
      obtain ⟨i', hi', hp', hle⟩ := this
      obtain ⟨j, hj, a1, a2, a3⟩ := last_filter p L i' hi' hp'
      refine ⟨j + 1, by simpa using hj, by omega, by simpa using a2, ?_⟩
      rw [List.getElem_cons_succ, ← a3, List.filter_cons]
      split
      · cases hf : L.filter p with
        | nil => rw [hf] at hm; cases hm
        | cons y l => simp [List.getLast?_cons_cons]
      · rfl

/-- **C65, one statement.** Where the code of a statement starts, its line is reported, unless another statement starts there too
and is listed later (as when a statement begins with another one, or leaves no code). -/
theorem c65_start {s : TState} {qs : List (Option Name × Front × List Stmt)} (h : Located s qs) {i : Nat} {y : Option Name × Nat × Stmt}
    (hy : (writtenLines qs)[i]? = some y) : ∃ pc, CodeOf (globalsOf s.front) (fun i => s.functionPcs[i]?) s.program pc y.2.2 ∧
      ∃ j z k, i ≤ j ∧ (writtenLines qs)[j]? = some z ∧ FileIs s.front z.1 k ∧ getFileLineForPC s.lines pc = .found k z.2.1 ∧
        CodeOf (globalsOf s.front) (fun i => s.functionPcs[i]?) s.program pc z.2.2 := by
  obtain ⟨-, L, h1, h2, h3, h4⟩ := h
  obtain ⟨hi, rfl⟩ := List.getElem?_eq_some_iff.1 hy
  have hi' : i < L.length := by rw [h1.length_eq]; exact hi
  obtain ⟨-, -, e3⟩ := h1.get hi' hi
  simp only [List.get_eq_getElem] at e3
  refine ⟨L[i].1.pc, e3 ▸ h3 _ (List.getElem_mem hi'), ?_⟩
  obtain ⟨j, hj, e1, e2, e4⟩ := last_filter (fun x : LineRec × Stmt => decide (x.1.pc ≤ L[i].1.pc)) L i hi' (by simp)
  have hj' : j < (writtenLines qs).length := by rw [← h1.length_eq]; exact hj
  obtain ⟨f1, f2, f3⟩ := h1.get hj hj'
  simp only [List.get_eq_getElem] at f1 f2 f3
  refine ⟨j, (writtenLines qs)[j], L[j].1.file, e1, by simp, f1, ?_, ?_⟩
  · rw [h4, e4, ← f2]
  · have e : L[j].1.pc = L[i].1.pc := by
      have : L[j].1.pc ≤ L[i].1.pc := by simpa using e2
      rcases Nat.lt_or_eq_of_le e1 with hlt | rfl
      · have := List.pairwise_iff_getElem.1 h2 i j hi' hj hlt
        omega
      · rfl
    rw [← e, ← f3]
    exact h3 _ (List.getElem_mem hj)

/-! ## Example: after a source with a macro and a failed one, a source in a file -/

namespace LocatedEx

/-- `func g() {` / `d(1)` / `d(2) }` / `x = d(3)` -/
def src : List UInt8 := bytes "struct S { a : int }\nfunc g() {\n d(1)\n d(2) }\n\nx = d(3)"

def after : TState := match compileString plainHost (some (bytes "g.tiny")) src Session1.s4 with
  | .ok true s => s
  | _ => {}

theorem compiled : compileString plainHost (some (bytes "g.tiny")) src Session1.s4 = .ok true after := by kernel_rfl

theorem parsed : (match parseProgram plainHost.fuel ⟨sourceTokens plainHost.strtod src, Session1.s4.front⟩ with
    | .ok [.struct _ _, .node 2 (.proc _ _ _ _ _), .node 6 (.assign _ _ _ _)] _ => true
    | _ => false) = true := by kernel_rfl

theorem noUse {xs q} (h : parseProgram plainHost.fuel ⟨sourceTokens plainHost.strtod src, Session1.s4.front⟩ = .ok xs q) : NoUse xs := by
  have e := parsed
  rw [h] at e
  split at e
  · next k => cases k; intro a b c d hm; simp at hm
  · cases e

/-- The hypotheses of all theorems hold of it. -/
theorem located : ∃ us nx rest tree ss qs f, sourceTokens plainHost.strtod src = us ++ nx :: rest ∧ ProgIs tree us nx ∧
    List.Forall₂ (fun a b => a.1 = b.1 ∧ ∃ d, SpellsS after.front d a.2 b.2) (linesInL tree) (statementsL ss) ∧
    qs.map Prod.snd = [(Session1.f2, Session1.innerProg), (Session1.f3, Session1.outerProg)] ∧
    Located after (qs ++ [(some (bytes "g.tiny"), f, ss)]) := by
  obtain ⟨qs, e, hs⟩ := c65_filed.1 Session1.session
  have hm : ∀ xs q t, parseProgram plainHost.fuel ⟨sourceTokens plainHost.strtod src, Session1.s4.front⟩ = .ok xs q →
      useMacros plainHost xs { Session1.s4 with nest := Session1.s4.nest + 1, front := q.st } = .ok () t →
      t = { Session1.s4 with nest := Session1.s4.nest + 1, front := q.st } := fun xs q t h1 h2 => by
    rw [useMacros_none (noUse h1)] at h2
    cases h2
    rfl
  obtain ⟨xs, q, t, ss, f, h1, h2, h3⟩ := compile_true compiled
  have ht := Session1.tail_of (src := src) (strtod := plainHost.strtod) (by decide +kernel) (by decide +kernel)
  obtain rfl := hm xs q t h1 h2
  have hs' := Filed.compile hs ht h1 h2 .start h3 compiled
  have I := session_start Session1.setup Session1.session
  obtain ⟨us, nx, rest, tree, g1, g2, g3, g4⟩ := source_spelled I.tables I.cur ht h1 h2 .start h3 compiled
  refine ⟨us, nx, rest, tree, ss, qs, f, g1, g3, lines_spelledL g4, e, ?_⟩
  have := c65_lines Session1.setup hs' (by decide +kernel)
  simpa using this

/-- The name of the file is the first string. -/
theorem strings : after.front.strings = [bytes "g.tiny"] := by decide +kernel

/-- Lines reported: the macro's function, the function of the file and what is in it, and the last line. -/
example : getFileLineForPC after.lines 10 = .found none 1 ∧ getFileLineForPC after.lines 60 = .found (some 0) 2 ∧
    getFileLineForPC after.lines 71 = .found (some 0) 3 ∧ getFileLineForPC after.lines 72 = .found (some 0) 4 ∧
    getFileLineForPC after.lines 100 = .found (some 0) 6 := by decide +kernel

end LocatedEx

end Tiny
