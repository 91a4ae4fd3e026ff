import Verif.Proofs.Layout
import Verif.Proofs.Program

/-!
# C28: program counters and source lines
-/

namespace Tiny
open Spec

namespace Spec

mutual
/-- The statements in a statement with their lines, each before those inside it, in the order of the source (for a
`for`: initialisation, body, step). -/
def statements : Stmt → List (Nat × Stmt)
  | .node line s => (line, s) :: statements s
  | .block ss => statementsL ss
  | .proc _ _ _ body => statements body
  | .ifThen _ body => statements body
  | .ifElse _ body alt => statements body ++ statements alt
  | .while _ body => statements body
  | .for init _ step body => statements init ++ statements body ++ statements step
  | .call _ _ | .assign _ _ _ | .ret _ | .brk _ | .cont _ | .use | .expr _ => []
/-- The same for consecutive statements. -/
def statementsL : List Stmt → List (Nat × Stmt)
  | [] => []
  | s :: ss => statements s ++ statementsL ss
end

/-- A statement as the parser makes it: with its line. -/
def IsNode (st : Stmt) : Prop := ∃ line s, st = .node line s

/-- All statements of several sources, with file and line. -/
def sourceLines (us : List (Option Nat × Globals × Nat × List Stmt)) : List (Option Nat × Nat × Stmt) :=
  us.flatMap fun u => (statementsL u.2.2.2).map fun x => (u.1, x.1, x.2)

/-- The functions defined in several sources. -/
def sourceProcs (us : List (Option Nat × Globals × Nat × List Stmt)) : List Nat :=
  us.flatMap fun u => (procsL u.2.2.2).map Prod.fst

end Spec

mutual
theorem logS_statements (g : Globals) : ∀ (st : Stmt) (pos : Nat), (logS g st pos).map Prod.snd = statements st
  | .node line s, pos => by simp [logS, statements, logS_statements g s]
  | .block ss, pos => by simp [logS, statements, logSs_statements g ss]
  | .proc _ _ _ body, pos => by simp [logS, statements, logS_statements g body]
  | .ifThen _ body, pos => by simp [logS, statements, logS_statements g body]
  | .ifElse _ body alt, pos => by simp [logS, statements, logS_statements g body, logS_statements g alt]
  | .while _ body, pos => by simp [logS, statements, logS_statements g body]
  | .for init _ step body, pos => by
    simp [logS, statements, logS_statements g body, logS_statements g init, logS_statements g step]
  | .call _ _, _ | .assign _ _ _, _ | .ret _, _ | .brk _, _ | .cont _, _ | .use, _ | .expr _, _ => by
    simp [logS, statements]
theorem logSs_statements (g : Globals) : ∀ (st : List Stmt) (pos : Nat), (logSs g st pos).map Prod.snd = statementsL st
  | [], _ => by simp [logSs, statementsL]
  | s :: ss, pos => by simp [logSs, statementsL, logS_statements g s, logSs_statements g ss]
end

/-! ## The table -/

theorem addRecord_mem {rs : List LineRec} {r x : LineRec} (h : x ∈ addRecord rs r) : x = r ∨ x ∈ rs := by
  unfold addRecord at h
  split at h
  · split at h
    · simp only [List.mem_append, List.mem_singleton] at h
      exact h.symm.imp id List.mem_of_mem_dropLast
    · simpa [or_comm] using h
  · simpa [or_comm] using h

/-- The table built from the records `rs` (most recent last): strictly increasing, and for every pc it has the same
last record at or before it. -/
theorem addRecord_spec {rs log : List LineRec} {r : LineRec} (hs : rs.Pairwise (fun x y => x.pc < y.pc))
    (hf : ∀ q, (rs.filter (fun x => x.pc ≤ q)).getLast? = (log.filter (fun x => x.pc ≤ q)).getLast?)
    (hr : ∀ x ∈ rs, x.pc ≤ r.pc) :
    (addRecord rs r).Pairwise (fun x y => x.pc < y.pc) ∧
    ∀ q, ((addRecord rs r).filter (fun x => x.pc ≤ q)).getLast? = ((log ++ [r]).filter (fun x => x.pc ≤ q)).getLast? := by
  have key : ∀ (pre : List LineRec) (q : Nat), ((pre ++ [r]).filter (fun x => x.pc ≤ q)).getLast? =
      if r.pc ≤ q then some r else (pre.filter (fun x => x.pc ≤ q)).getLast? := by
    intro pre q
    rw [List.filter_append]
    by_cases h : r.pc ≤ q
    · simp [h]
    · simp [h]
  unfold addRecord
  cases hl : rs.getLast? with
  | none =>
    simp only
    rw [List.getLast?_eq_none_iff] at hl
    subst hl
    refine ⟨by simp, fun q => ?_⟩
    rw [key, key, hf]
  | some last =>
    simp only
    obtain ⟨ys, rfl⟩ := List.getLast?_eq_some_iff.1 hl
    rw [List.pairwise_append] at hs
    have hlast : last.pc ≤ r.pc := hr last (by simp)
    by_cases e : r.pc = last.pc
    · rw [if_pos e, List.dropLast_concat]
      refine ⟨?_, fun q => ?_⟩
      · rw [List.pairwise_append]
        exact ⟨hs.1, by simp, fun a ha b hb => by
          simp only [List.mem_singleton] at hb; subst hb; have := hs.2.2 a ha last (by simp); omega⟩
      · rw [key, key, ← hf]
        by_cases h : r.pc ≤ q
        · simp [h]
        · rw [if_neg h, if_neg h, List.filter_append]
          have : ¬ last.pc ≤ q := by omega
          simp [this]
    · rw [if_neg e]
      refine ⟨?_, fun q => ?_⟩
      · rw [List.pairwise_append]
        refine ⟨List.pairwise_append.2 hs, by simp, fun a ha b hb => ?_⟩
        simp only [List.mem_singleton] at hb; subst hb
        simp only [List.mem_append, List.mem_singleton] at ha
        rcases ha with ha | rfl
        · have := hs.2.2 a ha last (by simp); omega
        · omega
      · rw [key, key, hf]

theorem addRecords_spec : ∀ (new : List LineRec) {rs log : List LineRec}, rs.Pairwise (fun x y => x.pc < y.pc) →
    (∀ q, (rs.filter (fun x => x.pc ≤ q)).getLast? = (log.filter (fun x => x.pc ≤ q)).getLast?) →
    (∀ x ∈ rs, ∀ y ∈ new, x.pc ≤ y.pc) → new.Pairwise (fun x y => x.pc ≤ y.pc) →
    (new.foldl addRecord rs).Pairwise (fun x y => x.pc < y.pc) ∧
    ∀ q, ((new.foldl addRecord rs).filter (fun x => x.pc ≤ q)).getLast? =
      ((log ++ new).filter (fun x => x.pc ≤ q)).getLast?
  | [], rs, log, hs, hf, _, _ => by rw [List.append_nil]; exact ⟨hs, hf⟩
  | r :: new, rs, log, hs, hf, hr, hn => by
    obtain ⟨h1, h2⟩ := addRecord_spec hs hf (fun x hx => hr x hx r (by simp))
    rw [List.pairwise_cons] at hn
    have := addRecords_spec new h1 h2 (fun x hx y hy => by
      rcases addRecord_mem hx with rfl | hx
      · exact hn.1 y hy
      · exact hr x hx y (by simp [hy])) hn.2
    simpa using this

/-! ## The search -/

theorem searchPC_spec {rs : List LineRec} (hs : rs.Pairwise (fun x y => x.pc < y.pc)) (pc : Nat) :
    ∀ (n lo hi : Nat), hi - lo ≤ n → lo < hi → hi ≤ rs.length → (∀ (k : Nat) r, rs[k]? = some r → hi ≤ k → pc < r.pc) →
    (∀ (k : Nat) r, rs[k]? = some r → k ≤ lo → lo = 0 ∨ r.pc ≤ pc) →
    ∃ i r, searchPC rs pc lo hi = some i ∧ rs[i]? = some r ∧
      (∀ (k : Nat) x, rs[k]? = some x → i < k → pc < x.pc) ∧ (i = 0 ∨ r.pc ≤ pc)
  | 0, lo, hi, h, hlt, _, _, _ => by omega
  | n + 1, lo, hi, h, hlt, hle, hhi, hlo => by
    rw [searchPC]
    by_cases h1 : lo + 1 ≥ hi
    · have e : (lo + hi) / 2 = lo := by omega
      simp only [h1, if_true]
      have hl : lo < rs.length := by omega
      refine ⟨lo, rs[lo], by rw [e], by simp, fun k x hk hlk => hhi k x hk (by omega), ?_⟩
      exact hlo lo _ (by simp) (Nat.le_refl _)
    · simp only [h1, if_false]
      have hc : (lo + hi) / 2 < rs.length := by omega
      rw [List.getElem?_eq_getElem hc]
      simp only
      have mono : ∀ (a b : Nat) x y, rs[a]? = some x → rs[b]? = some y → a < b → x.pc < y.pc := by
        intro a b x y ha hb hab
        obtain ⟨ha', rfl⟩ := List.getElem?_eq_some_iff.1 ha
        obtain ⟨hb', rfl⟩ := List.getElem?_eq_some_iff.1 hb
        exact List.pairwise_iff_getElem.1 hs a b ha' hb' hab
      have hcur : rs[(lo + hi) / 2]? = some rs[(lo + hi) / 2] := by simp
      by_cases c1 : rs[(lo + hi) / 2].pc < pc
      · rw [if_pos c1]
        refine searchPC_spec hs pc n _ _ (by omega) (by omega) hle hhi (fun k r hk hk2 => .inr ?_)
        rcases Nat.lt_or_eq_of_le hk2 with hk3 | hk3
        · have := mono k _ r _ hk hcur hk3; omega
        · rw [hk3, hcur] at hk; cases hk; omega
      · rw [if_neg c1]
        by_cases c2 : rs[(lo + hi) / 2].pc > pc
        · rw [if_pos c2]
          refine searchPC_spec hs pc n _ _ (by omega) (by omega) (by omega) (fun k r hk hk2 => ?_) hlo
          rcases Nat.lt_or_eq_of_le hk2 with hk3 | hk3
          · have := mono _ k _ r hcur hk hk3; omega
          · rw [← hk3, hcur] at hk; cases hk; omega
        · rw [if_neg c2]
          refine ⟨_, _, rfl, hcur, fun k x hk hik => ?_, .inr (by omega)⟩
          have := mono _ k _ x hcur hk hik; omega

theorem filter_getLast {rs : List LineRec} (pc i : Nat) (r : LineRec) (h : rs[i]? = some r) (hr : r.pc ≤ pc)
    (hi : ∀ (k : Nat) x, rs[k]? = some x → i < k → pc < x.pc) : (rs.filter (fun x => x.pc ≤ pc)).getLast? = some r := by
  have hl := (List.getElem?_eq_some_iff.1 h).1
  have : rs = rs.take (i + 1) ++ rs.drop (i + 1) := by simp
  rw [this, List.filter_append]
  have h2 : (rs.drop (i + 1)).filter (fun x => decide (x.pc ≤ pc)) = [] := by
    rw [List.filter_eq_nil_iff]
    intro x hx
    obtain ⟨j, hj, rfl⟩ := List.getElem_of_mem hx
    rw [List.getElem_drop]
    have := hi (i + 1 + j) _ (List.getElem?_eq_getElem (by simp at hj; omega)) (by omega)
    simp only [decide_eq_true_eq]; omega
  rw [h2, List.append_nil, List.take_add_one, h]
  rw [List.filter_append]
  simp [hr]

/-- The search finds the last record at or before `q`, or the first record if there is none. -/
theorem getFileLine_spec {rs : List LineRec} (hs : rs.Pairwise (fun x y => x.pc < y.pc)) (q : Nat) :
    getFileLineForPC rs q = match (rs.filter (fun x => x.pc ≤ q)).getLast? with
      | some r => .found r.file r.line
      | none => match rs.head? with
        | some r => .found r.file r.line
        | none => .nothing := by
  unfold getFileLineForPC
  by_cases h0 : rs.length = 0
  · have : rs = [] := List.length_eq_zero_iff.1 h0
    subst this; simp
  · rw [if_neg (by omega)]
    obtain ⟨i, r, h1, h2, h3, h4⟩ := searchPC_spec hs q rs.length 0 rs.length (by omega) (by omega) (Nat.le_refl _)
      (fun k r hk hk2 => by rw [List.getElem?_eq_none hk2] at hk; cases hk) (fun _ _ _ _ => .inl rfl)
    simp only [Int.toNat_natCast, h1, h2]
    by_cases hr : r.pc ≤ q
    · rw [filter_getLast q i r h2 hr h3]
    · have hi : i = 0 := by omega
      subst hi
      have : rs.filter (fun x => decide (x.pc ≤ q)) = [] := by
        rw [List.filter_eq_nil_iff]
        intro x hx
        obtain ⟨j, hj, rfl⟩ := List.getElem_of_mem hx
        by_cases e : j = 0
        · subst e
          rw [List.getElem?_eq_getElem hj] at h2; cases h2
          simpa using hr
        · have := h3 j _ (List.getElem?_eq_getElem hj) (by omega)
          simp; omega
      rw [this]
      simp [List.head?_eq_getElem?, h2]

/-- **C28**, the table alone: records added in the order of their pcs give a table strictly increasing by pc, and for
any pc at or after the first record the file and line reported are those of the record added last among those at or
before it (the one replaced by it if none was dropped); a pc before the first record reports the first record of the
table, and without records, or for a negative pc (a stopped thread), nothing is reported. -/
theorem c28_table (rs : List LineRec) (h : rs.Pairwise (fun x y => x.pc ≤ y.pc)) (q : Int) :
    (rs.foldl addRecord []).Pairwise (fun x y => x.pc < y.pc) ∧
    getFileLineForPC (rs.foldl addRecord []) q =
      if q < 0 then .nothing
      else match (rs.filter (fun x => (x.pc : Int) ≤ q)).getLast? with
        | some r => .found r.file r.line
        | none => match (rs.foldl addRecord []).head? with
          | some r => .found r.file r.line
          | none => .nothing := by
  obtain ⟨h1, h2⟩ := addRecords_spec rs (rs := []) (log := []) (by simp) (by simp) (by simp) h
  refine ⟨h1, ?_⟩
  by_cases hq : q < 0
  · rw [if_pos hq]; unfold getFileLineForPC; rw [if_pos (.inl hq)]
  · rw [if_neg hq]
    obtain ⟨n, rfl⟩ := Int.eq_ofNat_of_zero_le (by omega : 0 ≤ q)
    have e := getFileLine_spec h1 n
    rw [h2 n] at e
    simpa using e

/-! ## Compilation -/

/-- Statements with lines, and struct definitions, which leave nothing: the first line is that of the beginning, and where there
are no lines there is no code. -/
theorem logSs_head (g : Globals) : ∀ (ss : List Stmt) (pos : Nat), (∀ st ∈ ss, IsNode st ∨ st = .block []) →
    (∀ x, (logSs g ss pos).head? = some x → x.1 = pos) ∧ (logSs g ss pos = [] → finSs g ss pos = pos)
  | [], pos, _ => by simp [logSs, finSs]
  | s :: ss, pos, h => by
    rcases h s (by simp) with ⟨line, st, rfl⟩ | rfl
    · constructor
      · intro x hx
        simp only [logSs, logS, List.cons_append, List.head?_cons, Option.some.injEq] at hx
        rw [← hx]
      · intro e
        simp [logSs, logS] at e
    · have := logSs_head g ss pos fun st hst => h st (by simp [hst])
      simpa [logSs, logS, finSs, finS] using this

theorem compileState_logs {g : Globals} {newFns : Nat} {prog : List Stmt} {s s' : CS}
    (h : compileState g newFns prog s = .ok () s') (hl : s'.program.length ≤ 2 ^ 32) (hn : (idsL prog).Nodup) :
    ∃ l : List (Nat × Nat × Stmt), l.map Prod.snd = statementsL prog ∧ l.Pairwise (fun x y => x.1 ≤ y.1) ∧
      ((∀ st ∈ prog, IsNode st ∨ st = .block []) → (∀ x, l.head? = some x → x.1 = (body s.program).length) ∧
        (l = [] → body s'.program = body s.program)) ∧
      s'.log = (addLog s.file s.lines l, s.file) ∧
      (∀ x ∈ l, (body s.program).length ≤ x.1 ∧ x.1 ≤ (body s'.program).length) ∧
      (∀ k, k < (body s.program).length → s'.program[k]? = s.program[k]?) ∧
      (body s.program).length ≤ (body s'.program).length ∧
      (∀ i x, i ∉ idsL prog → s.functionPcs[i]? = some x → s'.functionPcs[i]? = some x) ∧
      (∀ (P : List UInt8) (fp : Nat → Option Nat),
        (∀ k, k < (body s'.program).length → P[k]? = s'.program[k]?) →
        (∀ i x, i ∈ idsL prog → s'.functionPcs[i]? = some x → fp i = some x) → ∀ x ∈ l, CodeOf g fp P x.1 x.2.2) := by
  obtain ⟨as2, s2, h2, rfl⟩ := compileState_ok h
  simp only [List.length_append, List.length_singleton] at hl
  have m := compileSs_made g prog _ s2 as2 h2
  have lg := compileSs_log g prog _ s2 as2 h2 (by omega) hn
  obtain ⟨ex, keep, _, hat⟩ := m
  simp only at keep hat
  have A := hat (by omega) hn (fun i => s2.functionPcs[i]?) (fun _ _ => rfl)
  have hb : ∀ k, k < (body s.program).length → (body s.program)[k]? = s.program[k]? := by
    intro k hk
    unfold body at hk ⊢
    split
    · rw [if_pos (by assumption)] at hk
      rw [List.getElem?_dropLast, if_pos (by simpa using hk)]
    · rfl
  refine ⟨logSs g prog (body s.program).length, logSs_statements _ _ _, A.sorted, fun hnode => ?_, lg, fun x hx => ?_, fun k hk => ?_, ?_,
    fun i x hi hx => ?_, fun P fp hP hfp x hx => ?_⟩
  · obtain ⟨k1, k2⟩ := logSs_head g prog (body s.program).length hnode
    refine ⟨k1, fun e => ?_⟩
    have k3 := k2 e
    rw [body_halt]
    have k4 := A.fin
    simp only [itemFin] at k4
    rw [k3] at k4
    have k5 := ex.agree
    simp only at k5
    refine List.ext_getElem? fun k => ?_
    by_cases hk : k < (body s.program).length
    · rw [k5 k hk]
    · rw [List.getElem?_eq_none (by omega), List.getElem?_eq_none (by omega)]
  · rw [body_halt]
    exact ⟨(A.logged x hx).1, (A.logged x hx).2.1⟩
  · have := ex.le
    simp only at this
    rw [List.getElem?_append_left (by omega), ex.agree k hk, hb k hk]
  · rw [body_halt]; exact ex.le
  · rw [keep i hi]
    have hlt := (List.getElem?_eq_some_iff.1 hx).1
    rw [List.getElem?_append_left hlt]; exact hx
  · rw [body_halt] at hP
    have A' := hat (by omega) hn fp (fun i hi => by
      obtain ⟨p, hp, rfl⟩ := List.mem_map.1 hi
      obtain ⟨e, _, _, _, _, he, _⟩ := A.fnIn p hp
      simp only at he
      rw [he]
      exact hfp _ _ hi he)
    have A'' := A'.agree (Q := P) (fun k _ hk => by
      rw [hP k hk, List.getElem?_append_left hk])
    exact (A''.logged x hx).2.2

theorem compileFiles_logs : ∀ {us : List (Option Nat × Globals × Nat × List Stmt)} {s s' : CS},
    compileFiles us s = .ok () s' → s'.program.length ≤ 2 ^ 32 → (sourceProcs us).Nodup →
    ∃ L : List (LineRec × Globals × Stmt),
      L.map (fun x => (x.1.file, x.1.line, x.2.2)) = sourceLines us ∧
      L.Pairwise (fun x y => x.1.pc ≤ y.1.pc) ∧
      ((∀ u ∈ us, ∀ st ∈ u.2.2.2, IsNode st ∨ st = .block []) → ∀ x, L.head? = some x → x.1.pc = (body s.program).length) ∧
      s'.lines = (L.map Prod.fst).foldl addRecord s.lines ∧
      (∀ x ∈ L, (body s.program).length ≤ x.1.pc ∧ x.1.pc ≤ (body s'.program).length) ∧
      (∀ k, k < (body s.program).length → s'.program[k]? = s.program[k]?) ∧
      (body s.program).length ≤ (body s'.program).length ∧
      (∀ i x, i ∉ sourceProcs us → s.functionPcs[i]? = some x → s'.functionPcs[i]? = some x) ∧
      (∀ x ∈ L, CodeOf x.2.1 (fun i => s'.functionPcs[i]?) s'.program x.1.pc x.2.2)
  | [], s, s', h, _, _ => by
    obtain ⟨_, rfl⟩ := CG.pure_ok.1 h
    exact ⟨[], by simp [sourceLines]⟩
  | (file, g, newFns, prog) :: us, s, s', h, hl, hn => by
    rw [compileFiles] at h
    obtain ⟨_, s0, h0, h'⟩ := CG.bind_ok.1 h
    obtain ⟨_, s1, h1, h2⟩ := CG.bind_ok.1 h'
    cases h0
    clear h h'
    have hn' : (idsL prog).Nodup ∧ (sourceProcs us).Nodup ∧ ∀ i ∈ idsL prog, i ∉ sourceProcs us := by
      simp only [sourceProcs, List.flatMap_cons] at hn
      have := List.nodup_append.1 hn
      exact ⟨this.1, this.2.1, fun i hi hi2 => this.2.2 i hi i hi2 rfl⟩
    have hlen : s1.program.length ≤ s'.program.length := by
      clear hn hl hn' h1
      induction us generalizing s1 with
      | nil => obtain ⟨_, rfl⟩ := CG.pure_ok.1 h2; exact Nat.le_refl _
      | cons u us ih =>
        obtain ⟨f, g, n, p⟩ := u
        rw [compileFiles] at h2
        obtain ⟨_, t0, h0, h3⟩ := CG.bind_ok.1 h2
        obtain ⟨_, t1, h1, h4⟩ := CG.bind_ok.1 h3
        cases h0
        have a1 := compileState_len h1
        have a2 := ih t1 h4
        have := body_len s1.program
        simp only at a1
        omega
    obtain ⟨l, e1, e2, e0, e3, e4, e5, e6, e7, e8⟩ := compileState_logs h1 (by omega) hn'.1
    obtain ⟨L, f1, f2, f0, f3, f4, f5, f6, f7, f8⟩ := compileFiles_logs h2 hl hn'.2.1
    simp only [CS.log, Prod.mk.injEq] at e3 e4 e5 e6 e7
    refine ⟨l.map (fun x => (⟨x.1, file, x.2.1⟩, g, x.2.2)) ++ L, ?_, ?_, ?_, ?_, ?_, ?_, by omega, ?_, ?_⟩
    · rw [List.map_append, f1]
      simp only [sourceLines, List.flatMap_cons, ← e1, List.map_map]
      rfl
    · rw [List.pairwise_append]
      refine ⟨by rw [List.pairwise_map]; exact e2, f2, ?_⟩
      rintro x hx y hy
      obtain ⟨z, hz, rfl⟩ := List.mem_map.1 hx
      have := e4 z hz; have := f4 y hy
      simp only at *; omega
    · intro hnode x hx
      obtain ⟨g1, g2⟩ := e0 (fun st hst => hnode _ (List.mem_cons_self ..) st hst)
      cases l with
      | nil =>
        rw [f0 (fun u hu => hnode u (List.mem_cons_of_mem _ hu)) x (by simpa using hx), g2 rfl]
      | cons y l =>
        simp only [List.map_cons, List.cons_append, List.head?_cons, Option.some.injEq] at hx
        subst hx
        exact g1 y rfl
    · rw [f3, e3.1, List.map_append, List.foldl_append]
      simp only [List.map_map, addLog, List.foldl_map]
      rfl
    · intro x hx
      rw [List.mem_append] at hx
      rcases hx with hx | hx
      · obtain ⟨z, hz, rfl⟩ := List.mem_map.1 hx
        have := e4 z hz
        simp only at *; omega
      · have := f4 x hx; omega
    · intro k hk
      rw [f5 k (by omega), e5 k hk]
    · intro i x hi hx
      simp only [sourceProcs, List.flatMap_cons, List.mem_append, not_or] at hi
      exact f7 i x hi.2 (e7 i x hi.1 hx)
    · intro x hx
      rw [List.mem_append] at hx
      rcases hx with hx | hx
      · obtain ⟨z, hz, rfl⟩ := List.mem_map.1 hx
        exact e8 _ _ (fun k hk => f5 k hk) (fun i x hi hx => f7 i x (hn'.2.2 i hi) hx) z hz
      · exact f8 x hx

/-- **C28** After compiling any sources into an empty state: list the statements of the sources in order, each with its
file, its line and the position `pc` of its code (`CodeOf`: the code of this very statement is at that position of the
program; positions never go back in the list). Then the table of records is strictly increasing by pc, and the file and
line reported for a pc are those of the last statement in the list whose code starts at or before it. -/
theorem c28_lines {us : List (Option Nat × Globals × Nat × List Stmt)} {s' : CS} (h : compileFiles us {} = .ok () s')
    (hl : s'.program.length ≤ 2 ^ 32) (hn : (sourceProcs us).Nodup)
    (hnode : ∀ u ∈ us, ∀ st ∈ u.2.2.2, IsNode st ∨ st = .block []) :
    s'.lines.Pairwise (fun x y => x.pc < y.pc) ∧
    ∃ L : List (LineRec × Globals × Stmt),
      L.map (fun x => (x.1.file, x.1.line, x.2.2)) = sourceLines us ∧
      L.Pairwise (fun x y => x.1.pc ≤ y.1.pc) ∧
      (∀ x ∈ L, CodeOf x.2.1 (fun i => s'.functionPcs[i]?) s'.program x.1.pc x.2.2) ∧
      ∀ q : Nat, getFileLineForPC s'.lines q =
        match (L.filter (fun x => x.1.pc ≤ q)).getLast? with
        | some x => .found x.1.file x.1.line
        | none => .nothing := by
  obtain ⟨L, f1, f2, f0, f3, f4, f5, f6, f7, f8⟩ := compileFiles_logs h hl hn
  have hp : (L.map Prod.fst).Pairwise (fun x y => x.pc ≤ y.pc) := by rw [List.pairwise_map]; exact f2
  refine ⟨by rw [f3]; exact (c28_table _ hp 0).1, L, f1, f2, f8, fun q => ?_⟩
  rw [f3]
  have e := (c28_table _ hp q).2
  rw [e, if_neg (by omega)]
  have : (List.filter (fun x => decide ((x.pc : Int) ≤ (q : Int))) (L.map Prod.fst)).getLast? =
      (L.filter (fun x => x.1.pc ≤ q)).getLast?.map Prod.fst := by
    rw [List.filter_map, List.getLast?_map]
    simp [Function.comp_def]
  rw [this]
  cases hx : (L.filter (fun x => decide (x.1.pc ≤ q))).getLast? with
  | some x => rfl
  | none =>
    simp only [Option.map_none]
    -- nothing starts at or before `q`: then there is no statement, since the first starts at 0
    cases L with
    | nil => rfl
    | cons x L =>
      have := f0 hnode x rfl
      simp only [body, List.getLast?_nil, reduceCtorEq, if_false, List.length_nil] at this
      simp [this] at hx

/-- **C28**, defect: while a bound function called by a call statement runs, the thread's pc is already the end of
the code of that statement (the operands of `CALLF` have been read), so if another statement starts there, its file and
line are the ones reported, not those of the call. -/
theorem c28_defect {rs : List LineRec} {g : Globals} {fp : Nat → Option Nat} {P : List UInt8} {pos b c : Nat}
    {callee : Name} {args : List Expr} {a : Stmt} {fin i k : Nat} {va : Bool} (hs : rs.Pairwise (fun x y => x.pc < y.pc))
    (h : At g fp P pos (.s b c (.call callee args) a) fin) (hf : g.funcs callee = some (.foreign i k va)) :
    (∃ p, P[p]? = some Op.callf.toByte ∧ readValueAt P (p + 2) 4 = .ok (i % 2 ^ 32, fin)) ∧
    ∀ r ∈ rs, r.pc = fin → getFileLineForPC rs fin = .found r.file r.line := by
  constructor
  · cases h
    case callS p1 f h1 h2 h3 h4 =>
      rw [hf] at h1
      cases h1
      exact ⟨_, h4.1, h4.2.2⟩
  · intro r hr he
    rw [getFileLine_spec hs]
    obtain ⟨j, hj, rfl⟩ := List.getElem_of_mem hr
    rw [filter_getLast fin j rs[j] (List.getElem?_eq_getElem hj) (by omega) (fun k x hk hjk => by
      obtain ⟨hk', rfl⟩ := List.getElem?_eq_some_iff.1 hk
      have := List.pairwise_iff_getElem.1 hs j k hj hk' hjk; omega)]

/-! ## An example: two files -/

namespace LinesExample

def globals : Globals where
  funcs := fun n => if n = [112] then some (.foreign 0 1 false) else none

/-- `p(7)` / `while true {` / `p(1)` / `break }` -/
def first : List Stmt := [
  .node 1 (.call [112] [.int 7#32]),
  .node 2 (.while (.bool true) (.node 2 (.block [.node 3 (.call [112] [.int 1#32]), .node 4 (.brk 0)])))]

/-- `use x` / `p(0)` -/
def second : List Stmt := [.node 1 .use, .node 2 (.call [112] [.int 0#32])]

def table : List LineRec := [⟨0, some 3, 1⟩, ⟨24, some 3, 2⟩, ⟨32, some 3, 3⟩, ⟨40, some 3, 4⟩, ⟨56, some 5, 2⟩]

def code : List UInt8 := [4, 44, 44, 44, 44, 44, 44, 44, 7, 0, 0, 0, 0, 0, 0, 0, 38, 1, 44, 44, 0, 0, 0, 0, 2, 34, 44, 44,
  56, 0, 0, 0, 6, 38, 1, 44, 0, 0, 0, 0, 33, 44, 44, 44, 56, 0, 0, 0, 33, 44, 44, 44, 24, 0, 0, 0, 5, 38, 1, 44, 0, 0, 0, 0,
  43]

set_option maxRecDepth 100000 in
theorem compiled : compileFiles [(some 3, globals, 0, first), (some 5, globals, 0, second)] {} =
    .ok () { program := code, file := some 5, lines := table } := by
  simp (maxSteps := 1000000) [compileFiles, compileState, compileSs, compileS, first, second, bind, pure, compileE, genJump,
    genOp, genByte, genValue, compileArgs, genCall, programCount, patchJump, writeAt, leBytes, alignUp,
    genPushInt, globals, addLine, addRecord, compileCall, patchBC, patchBCs]
  exact ⟨rfl, rfl⟩

/-- The hypotheses of `c28_lines` hold of it. -/
example : ∃ L : List (LineRec × Globals × Stmt),
      L.map (fun x => (x.1.file, x.1.line, x.2.2)) =
        sourceLines [(some 3, globals, 0, first), (some 5, globals, 0, second)] ∧
      ∀ q : Nat, getFileLineForPC table q =
        match (L.filter (fun x => x.1.pc ≤ q)).getLast? with
        | some x => .found x.1.file x.1.line
        | none => .nothing :=
  have h := (c28_lines compiled (by decide) (by simp [sourceProcs, first, second, procsL, procs])
    (by simp [first, second, IsNode])).2
  h.imp fun _ h => ⟨h.1, h.2.2.2⟩

/-- Lines reported: in the middle of the loop, the jump back at its end, and the second file. While `p` runs for the
call on line 1 the pc is 24, for which line 2 is reported (`c28_defect`). -/
example : getFileLineForPC table 35 = .found (some 3) 3 ∧ getFileLineForPC table 48 = .found (some 3) 4 ∧
    getFileLineForPC table 56 = .found (some 5) 2 ∧ getFileLineForPC table 24 = .found (some 3) 2 ∧
    getFileLineForPC table 16 = .found (some 3) 1 ∧ getFileLineForPC table (-1) = .nothing := by
  simp [getFileLineForPC, table, searchPC]

end LinesExample

end Tiny
