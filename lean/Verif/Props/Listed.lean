import Verif.Spec.Listed
import Verif.Props.Operands
import Verif.Props.Located
import Verif.Props.DisasmText
import Verif.Props.BytecodeExamples

/-!
# C67: every instruction of a compiled program can be listed
-/

namespace Tiny
open Spec

/-- The operands the disassembler shows: the number C66 is about is the last one. -/
theorem switch_operand {P : List UInt8} {pc e : Nat} {op : Op} {l : Listing} (h : disasmSwitch P pc op = .ok (some (l, e))) :
    (operands op = .none ∧ l.operands = []) ∨ ∃ i, operandAt P op pc = some i ∧
      (operands op ≠ .byteNumber ∧ l.operands = [i] ∨ operands op = .byteNumber ∧ ∃ n, l.operands = [n, i]) := by
  have none : ∀ o, disasmNoArgs o pc = .ok (some (l, e)) → l.operands = [] := by
    intro o h
    cases h
    rfl
  have byte : ∀ o, disasmByte P o pc = .ok (some (l, e)) → ∃ i, P[pc + 1]?.map UInt8.toNat = some i ∧ l.operands = [i] := by
    intro o h
    unfold disasmByte at h
    obtain ⟨b, hb, h⟩ := Res.bind_eq_ok.1 h
    cases h
    exact ⟨_, by rw [readByte_eq.1 hb]; rfl, rfl⟩
  have value : ∀ o n, 0 < n → disasmValue P n o pc = .ok (some (l, e)) →
      ∃ i, numberAt P (alignedFrom (pc + 1) n) n = some i ∧ l.operands = [i] := by
    intro o n hn h
    unfold disasmValue readValueAt at h
    obtain ⟨⟨v, q⟩, hv, h⟩ := Res.bind_eq_ok.1 h
    obtain ⟨w, hw, hv⟩ := Res.bind_eq_ok.1 hv
    cases hv
    cases h
    rw [alignedFrom_eq _ _ hn]
    exact ⟨_, readLE_eq.1 hw, rfl⟩
  have call : ∀ o, disasmCall P o pc = .ok (some (l, e)) →
      ∃ i, numberAt P (alignedFrom (pc + 2) 4) 4 = some i ∧ ∃ n, l.operands = [n, i] := by
    intro o h
    unfold disasmCall readValueAt at h
    obtain ⟨b, hb, h⟩ := Res.bind_eq_ok.1 h
    obtain ⟨⟨v, q⟩, hv, h⟩ := Res.bind_eq_ok.1 h
    obtain ⟨w, hw, hv⟩ := Res.bind_eq_ok.1 hv
    cases hv
    cases h
    rw [alignedFrom_eq _ _ (by omega)]
    exact ⟨_, readLE_eq.1 hw, _, rfl⟩
  cases op <;> simp only [disasmSwitch] at h
  case shl => cases h
  case shr => cases h
  case pushStruct =>
    obtain ⟨b, -, h⟩ := Res.bind_eq_ok.1 h
    obtain ⟨_, -, h⟩ := Res.bind_eq_ok.1 h
    obtain ⟨i, h1, h2⟩ := byte _ h
    exact .inr ⟨i, h1, .inl ⟨by decide, h2⟩⟩
  all_goals first
    | exact .inl ⟨rfl, none _ h⟩
    | (obtain ⟨i, h1, h2⟩ := byte _ h; exact .inr ⟨i, h1, .inl ⟨by decide, h2⟩⟩)
    | (obtain ⟨i, h1, h2⟩ := value _ 4 (by omega) h; exact .inr ⟨i, h1, .inl ⟨by decide, h2⟩⟩)
    | (obtain ⟨i, h1, h2⟩ := value _ 8 (by omega) h; exact .inr ⟨i, h1, .inl ⟨by decide, h2⟩⟩)
    | (obtain ⟨i, h1, n, h2⟩ := call _ h; exact .inr ⟨i, h1, .inr ⟨rfl, n, h2⟩⟩)

/-- What an instruction refers to is found, and its text begins with its name. -/
theorem instr_listed {fmtG : BitVec 64 → List UInt8} {s : TState} {p e : Nat} {op : Op} {l : Listing}
    (h : disasmSwitch s.program p op = .ok (some (l, e))) (hl : l.op = op) (hs : op ≠ .shl ∧ op ≠ .shr)
    (hr : operands op ≠ .none → ∃ i, operandAt s.program op p = some i ∧ Refers s p op i) :
    ∃ r, disasmInstr fmtG s l = .ok (bytes (opName op) ++ r) := by
  obtain ⟨o, ns⟩ := l
  simp only at hl
  subst hl
  have named : ∀ (t : String) (r : List UInt8), bytes t = bytes (opName o) ++ bytes " " →
      ∃ r', (Res.ok (nameOf t ++ r) : Res (List UInt8)) = .ok (bytes (opName o) ++ r') := by
    intro t r ht
    exact ⟨bytes " " ++ r, by rw [nameOf_bytes, ht, List.append_assoc]⟩
  rcases switch_operand h with ⟨h1, h2⟩ | ⟨i, h1, h2⟩
  · simp only at h2
    subst h2
    refine ⟨[], ?_⟩
    rw [List.append_nil, ← opText_name hs]
    cases o <;> first | rfl | cases h1
  · have hne : operands o ≠ .none := by
      intro h0
      simp [operandAt, h0] at h1
    obtain ⟨j, h3, h4⟩ := hr hne
    rw [h1] at h3
    cases h3
    have other : ∀ r, (Res.ok (opText o ++ nameOf " " ++ r) : Res (List UInt8)) = .ok (bytes (opName o) ++ (nameOf " " ++ r)) := by
      intro r
      rw [opText_name hs, List.append_assoc]
    rcases h2 with ⟨h5, h2⟩ | ⟨h5, n, h2⟩
    · simp only at h2
      subst h2
      have str : o = .pushString ∨ o = .pushStringFF → ∃ r, disasmString s o i = .ok (bytes (opName o) ++ r) := by
        intro ho
        have : ∃ t, s.front.strings[i]? = some t := by rcases ho with rfl | rfl <;> exact h4
        obtain ⟨t, ht⟩ := this
        refine ⟨nameOf " " ++ fmtD i ++ nameOf " (\"" ++ t ++ nameOf "\")", ?_⟩
        rw [disasmString, ht]
        simp only [opText_name hs, List.append_assoc]
      cases o
      case pushString => exact str (.inl rfl)
      case pushStringFF => exact str (.inr rfl)
      case pushChar =>
        exact ⟨bytes " '" ++ ([UInt8.ofNat i] ++ nameOf "'"), by
          show Res.ok (nameOf "PUSH_CHAR '" ++ [UInt8.ofNat i] ++ nameOf "'") = _
          rw [show nameOf "PUSH_CHAR '" = bytes (opName .pushChar) ++ bytes " '" from by decide +kernel]
          simp only [List.append_assoc]⟩
      case pushInt => exact named "PUSH_INT " _ (by decide +kernel)
      case pushFloat => exact named "PUSH_FLOAT " _ (by decide +kernel)
      case call => exact absurd rfl h5
      case callf => exact absurd rfl h5
      all_goals first
        | exact ⟨_, other _⟩
        | exact absurd rfl hne
    · simp only at h2
      subst h2
      cases o
      case call =>
        obtain ⟨fi, q, -, -, h6, -⟩ := h4
        show ∃ r, (match s.functionPcs[i]? with | none => Res.ub | some p => .ok (nameOf "CALL " ++ fmtD n ++ nameOf " " ++ fmtD i ++ nameOf " (" ++ fmtD p ++ nameOf ")")) = _
        rw [h6]
        simp only [List.append_assoc]
        exact named "CALL " _ (by decide +kernel)
      case callf =>
        obtain ⟨m, ts, va, r, h6, -⟩ := h4
        have : ∃ f, s.front.syms.findSome? (Sym.foreignName i) = some f := by
          refine Option.isSome_iff_exists.1 ?_
          rw [List.findSome?_isSome_iff]
          exact ⟨_, h6, by simp [Sym.foreignName]⟩
        obtain ⟨f, hf⟩ := this
        show ∃ r, (match s.front.syms.findSome? (Sym.foreignName i) with | none => Res.ub | some f => .ok (nameOf "CALLF " ++ f ++ nameOf "(" ++ fmtD n ++ nameOf ")")) = _
        rw [hf]
        simp only [List.append_assoc]
        exact named "CALLF " _ (by decide +kernel)
      all_goals cases h5

/-- For each address a statement whose code is there or starts before it. -/
theorem source_found {f0 : Front} (h0 : Setup f0) {s : TState} {qs : List (Option Name × Front × List Stmt)}
    (hs : Filed { front := f0 } s qs) (hl : s.program.length ≤ 2 ^ 32) (hw : writtenLines qs ≠ []) (hn : ∀ q ∈ qs, q.1 ≠ none) (p : Nat) :
    ∃ i file line st, (some file, line, st) ∈ writtenLines qs ∧ getFileLineForPC s.lines p = .found (some i) line ∧
      s.front.strings[i]? = some file := by
  obtain ⟨L, k⟩ := filed_lines hs [] [] (session_start h0 .start) (fun _ => ⟨[], .new f0⟩) hl
  rw [List.nil_append] at k
  have hp : (L.map Prod.fst).Pairwise (fun x y => x.pc ≤ y.pc) := by rw [List.pairwise_map]; exact k.sorted
  have ht := (c28_table _ hp p).2
  rw [← k.lines, if_neg (by omega)] at ht
  cases L with
  | nil =>
    have := k.recs
    generalize writtenLines qs = W at this hw
    cases this
    exact absurd rfl hw
  | cons x L =>
    have h0 := k.first x rfl
    have hmem : x.1 ∈ List.filter (fun x => decide ((x.pc : Int) ≤ (p : Int))) (((x :: L)).map Prod.fst) := by
      rw [List.mem_filter]
      exact ⟨by simp, by simp only [decide_eq_true_eq]; omega⟩
    cases hg : (List.filter (fun x => decide ((x.pc : Int) ≤ (p : Int))) (((x :: L)).map Prod.fst)).getLast? with
    | none =>
      rw [List.getLast?_eq_none_iff] at hg
      rw [hg] at hmem
      cases hmem
    | some r =>
      rw [hg] at ht
      have hr := (List.mem_filter.1 (List.mem_of_getLast? hg)).1
      obtain ⟨y, hy, rfl⟩ := List.mem_map.1 hr
      obtain ⟨j, hj⟩ := List.getElem?_of_mem hy
      obtain ⟨z, hz, h5, h6, h7⟩ : ∃ z ∈ writtenLines qs, RecordOf s.front y z := by
        have := k.recs
        clear ht hg hmem hr hj
        clear hp h0 k
        revert hy
        generalize writtenLines qs = W at this
        generalize x :: L = L' at this
        induction this with
        | nil => intro h; cases h
        | cons a _ ih =>
          intro h
          rcases List.mem_cons.1 h with rfl | h
          · exact ⟨_, List.mem_cons_self, a⟩
          · obtain ⟨z, hz, hr⟩ := ih h
            exact ⟨z, List.mem_cons_of_mem _ hz, hr⟩
      obtain ⟨fn, line, st⟩ := z
      obtain ⟨q, hq, hq2⟩ := List.mem_flatMap.1 hz
      obtain ⟨w, -, hw2⟩ := List.mem_map.1 hq2
      have := hn q hq
      have e : q.1 = fn := congrArg Prod.fst hw2
      cases fn with
      | none => exact absurd e this
      | some file =>
        obtain ⟨i, h8, h9⟩ := h5
        simp only at h6 h8
        simp only [h8, h6] at ht
        exact ⟨i, file, line, st, hz, ht, h9⟩

/-- A program read from its beginning is a sequence of whole instructions. -/
theorem Inv.walk {s : TState} {ps : List (Front × List Stmt)} {pend : List Nat} (I : Inv s ps pend) (hne : ps ≠ [])
    (hsize : s.program.length ≤ 2 ^ 32) : Visits s.program 0 s.program.length := by
  have hb := I.built hsize
  have hbody : s.program = body s.program ++ [Op.halt.toByte] := by
    obtain ⟨ys, hys⟩ := List.getLast?_eq_some_iff.1 (I.halt hne)
    rw [hys, body_halt]
  obtain ⟨as, hcode⟩ := hb.code
  have hat := (hcode (fun i => s.functionPcs[i]?) fun i _ => rfl).agree (Q := s.program) fun k _ hk => by
    conv_lhs => rw [hbody]
    rw [List.getElem?_append_left hk]
  have hlen : s.program.length = (body s.program).length + 1 := by
    have := congrArg List.length hbody
    simpa using this
  have hh : AtI s.program (body s.program).length (.op .halt) s.program.length := by
    refine ⟨?_, hlen⟩
    have e : ∀ P Q : List UInt8, P = Q ++ [Op.halt.toByte] → P[Q.length]? = some Op.halt.toByte := by
      rintro P Q rfl; simp
    exact e _ _ hbody
  exact hat.closed.walk.trans (.one (hh.nextInstr rfl))

theorem instr_fits {P : List UInt8} (hw : Visits P 0 P.length) {p : Nat} {op : Op} (hp : Visits P 0 p) (ho : P[p]? = some op.toByte) :
    instrEnd op p ≤ P.length ∧ Visits P 0 (instrEnd op p) := by
  have hlt := (List.getElem?_eq_some_iff.1 ho).1
  have hv := hp.linear hw (by omega)
  generalize P.length = n at hv hlt
  cases hv with
  | here => omega
  | next h1 h2 =>
    obtain ⟨op', h3, h4, h5⟩ := nextInstr_some h1
    rw [ho] at h3
    obtain rfl := Op.toByte_inj (Option.some.inj h3)
    subst h4
    exact ⟨h2.le, hp.trans (.one h1)⟩

/-- **C67.** In a program which was compiled by any sequence of calls of the host, each source with a file name and at least one statement with
a line: every instruction but the shifts (C19) can be listed. The line begins with its address, the file and the line of a statement of the
sources and the name of the instruction, `*ppc` moves to the next instruction, or to `-1` at the end; if not even the position fits into the
buffer, the result is false and `*ppc` stays. (The parser accepts no struct without fields; one of 256 fields, whose number is written as one byte 0, is an assertion failure, as
it is when it is executed. At most `2 ^ 32` of each kind, as in C66.) -/
theorem c67_listing {f0 : Front} (h0 : Setup f0) {s : TState} {qs : List (Option Name × Front × List Stmt)}
    (hs : Filed { front := f0 } s qs) (hw : writtenLines qs ≠ []) (hn : ∀ q ∈ qs, q.1 ≠ none)
    (hsize : s.program.length ≤ 2 ^ 32) (hF : s.front.numFunctions ≤ 2 ^ 32) (hX : s.front.numForeign ≤ 2 ^ 32)
    (hG : s.front.numGlobalVars ≤ 2 ^ 32) (hC : ∀ n t i, Sym.const n t (.str i) ∈ s.front.syms → i < s.front.strings.length)
    (hA : ∀ fi, Sym.func fi ∈ s.front.syms → fi.args.length ≤ 2 ^ 31) (fmtG : BitVec 64 → List UInt8)
    (hS : ∀ n fs, Sym.struct n true fs ∈ s.front.syms → fs.length % 256 ≠ 0)
    {p : Nat} {op : Op} (hp : Visits s.program 0 p) (ho : s.program[p]? = some op.toByte) (hop : op ≠ .shl ∧ op ≠ .shr) :
    ∃ file line st rest, (some file, line, st) ∈ writtenLines qs ∧
      let head := decimal p ++ bytes " (" ++ file ++ bytes ":" ++ number (BitVec.ofNat 32 line).toInt ++ bytes ")\t"
      ∀ maxlen, disasmText fmtG s p maxlen =
        if maxlen ≤ head.length then .ok (false, p, head.take (maxlen - 1))
        else .ok (true, shownPc s.program (instrEnd op p), (head ++ bytes (opName op) ++ rest).take (maxlen - 1)) := by
  obtain ⟨i, file, line, st, h1, h2, h3⟩ := source_found h0 hs hsize hw hn p
  have hne : qs.map Prod.snd ≠ [] := by
    intro h
    rw [List.map_eq_nil_iff] at h
    subst h
    exact hw rfl
  have R := c66_operands h0 (filed_session hs) hne hsize hF hX hG hC hA
  have hlt := (List.getElem?_eq_some_iff.1 ho).1
  have hfit := (instr_fits ((session_start h0 (filed_session hs)).walk hne hsize) hp ho).1
  have hst : op = .pushStruct → s.program[p + 1]? ≠ some 0 := by
    rintro rfl h
    obtain ⟨i, h4, n, fs, h5, h6⟩ := R p _ hp ho (by decide)
    have e : operandAt s.program .pushStruct p = s.program[p + 1]?.map UInt8.toNat := rfl
    rw [e, h] at h4
    cases h4
    exact hS n fs h5 h6.symm
  obtain ⟨l, hl, hd⟩ := disasmSwitch_spec ho hop hfit hst
  obtain ⟨r, hr⟩ := instr_listed (fmtG := fmtG) hd hl hop (fun h => R p op hp ho h)
  refine ⟨file, line, st, r, h1, fun maxlen => ?_⟩
  have hfl : fileLine s p = .ok (some file, line) := by rw [fileLine, h2]; simp only [h3]
  have hhead : Std.fmtInt (p : Int) ++ nameOf " (" ++ file ++ nameOf ":" ++ fmtD line ++ nameOf ")\t" =
      decimal p ++ bytes " (" ++ file ++ bytes ":" ++ number (BitVec.ofNat 32 line).toInt ++ bytes ")\t" := by
    rw [number_fmt, number, if_neg (by omega), Int.natAbs_natCast, fmtD, number_fmt]; rfl
  rw [disasmText, if_neg (by omega), hfl, Res.bind_ok]
  simp only [hhead]
  split
  · rfl
  · rename_i hm
    rw [Int.toNat_natCast, readByte_eq.2 ho, Res.bind_ok, Op.ofByte_toByte]
    simp only [hd, Res.bind_ok, hr]
    rw [take_head hm, ← List.append_assoc]
    rfl

theorem lists_from {fmtG : BitVec 64 → List UInt8} {s : TState} {maxlen : Nat}
    (H : ∀ p op, Visits s.program 0 p → s.program[p]? = some op.toByte →
      ∃ x, disasmText fmtG s p maxlen = .ok (true, shownPc s.program (instrEnd op p), x)) {a b : Nat} (h : Visits s.program a b) :
    Visits s.program 0 a → b = s.program.length → ∃ ls, Lists fmtG s maxlen (if s.program.length ≤ a then -1 else (a : Nat)) ls ∧
      (ls.map Prod.fst).Pairwise (· < ·) ∧ ∀ p, p ∈ ls.map Prod.fst ↔ Visits s.program a p ∧ p < s.program.length := by
  induction h with
  | here =>
    intro _ hb
    subst hb
    refine ⟨[], by rw [if_pos (Nat.le_refl _)]; exact .done, by simp, fun p => ?_⟩
    simp only [List.map_nil, List.not_mem_nil, false_iff, not_and]
    intro h1
    have := h1.le
    omega
  | @next a m b h1 h2 ih =>
    intro hv hb
    have hlt := nextInstr_lt h1
    obtain ⟨op, ho, rfl, -⟩ := nextInstr_some h1
    obtain ⟨ls, k1, k2, k3⟩ := ih (hv.trans (.one h1)) hb
    obtain ⟨x, hx⟩ := H a op hv ho
    have hal := (List.getElem?_eq_some_iff.1 ho).1
    refine ⟨(a, x) :: ls, ?_, ?_, fun p => ?_⟩
    · rw [if_neg (by omega)]
      exact .line hx k1
    · rw [List.map_cons, List.pairwise_cons]
      refine ⟨fun q hq => ?_, k2⟩
      have := ((k3 q).1 hq).1.le
      simp only
      omega
    · rw [List.map_cons, List.mem_cons, k3]
      constructor
      · rintro (rfl | ⟨h3, h4⟩)
        · exact ⟨.here, hal⟩
        · exact ⟨.next h1 h3, h4⟩
      · rintro ⟨h3, h4⟩
        cases h3 with
        | here => exact .inl rfl
        | next h5 h6 =>
          rw [h1] at h5
          cases h5
          exact .inr ⟨h6, h4⟩

theorem bounded {Q : Nat → Nat → Prop} (n : Nat) (h : ∀ p, p < n → ∃ k, ∀ m, k < m → Q p m) : ∃ k, ∀ m, k < m → ∀ p, p < n → Q p m := by
  induction n with
  | zero => exact ⟨0, fun m _ p hp => by omega⟩
  | succ n ih =>
    obtain ⟨k, hk⟩ := ih fun p hp => h p (by omega)
    obtain ⟨k', hk'⟩ := h n (by omega)
    refine ⟨max k k', fun m hm p hp => ?_⟩
    by_cases e : p = n
    · subst e
      exact hk' m (by omega)
    · exact hk m (by omega) p (by omega)

/-- **C67, whole programs.** With a buffer large enough, calling the disassembler again and again from 0 gets to the end and shows each
instruction once, in order, and nothing else, if there are no shifts (C19). -/
theorem c67_program {f0 : Front} (h0 : Setup f0) {s : TState} {qs : List (Option Name × Front × List Stmt)}
    (hs : Filed { front := f0 } s qs) (hw : writtenLines qs ≠ []) (hn : ∀ q ∈ qs, q.1 ≠ none)
    (hsize : s.program.length ≤ 2 ^ 32) (hF : s.front.numFunctions ≤ 2 ^ 32) (hX : s.front.numForeign ≤ 2 ^ 32)
    (hG : s.front.numGlobalVars ≤ 2 ^ 32) (hC : ∀ n t i, Sym.const n t (.str i) ∈ s.front.syms → i < s.front.strings.length)
    (hA : ∀ fi, Sym.func fi ∈ s.front.syms → fi.args.length ≤ 2 ^ 31) (fmtG : BitVec 64 → List UInt8)
    (hS : ∀ n fs, Sym.struct n true fs ∈ s.front.syms → fs.length % 256 ≠ 0)
    (hl : ∀ p, Visits s.program 0 p → s.program[p]? ≠ some Op.shl.toByte ∧ s.program[p]? ≠ some Op.shr.toByte) :
    ∃ least, ∀ maxlen, least < maxlen → ∃ ls, Lists fmtG s maxlen 0 ls ∧ (ls.map Prod.fst).Pairwise (· < ·) ∧
      ∀ p, p ∈ ls.map Prod.fst ↔ Visits s.program 0 p ∧ p < s.program.length := by
  have hne : qs.map Prod.snd ≠ [] := by
    intro h
    rw [List.map_eq_nil_iff] at h
    subst h
    exact hw rfl
  have I := session_start h0 (filed_session hs)
  obtain ⟨k, hk⟩ := bounded (Q := fun p m => ∀ op, Visits s.program 0 p → s.program[p]? = some op.toByte →
      ∃ x, disasmText fmtG s p m = .ok (true, shownPc s.program (instrEnd op p), x)) s.program.length fun p hlt => by
    by_cases hp : Visits s.program 0 p
    · obtain ⟨op, ho⟩ := visited_op (I.walk hne hsize) hp hlt
      obtain ⟨a, b⟩ := hl p hp
      have hop : op ≠ .shl ∧ op ≠ .shr := ⟨by rintro rfl; exact a ho, by rintro rfl; exact b ho⟩
      obtain ⟨file, line, st, rest, -, h1⟩ := c67_listing h0 hs hw hn hsize hF hX hG hC hA fmtG hS hp ho hop
      have h2 : ∀ head : List UInt8, (∀ maxlen, disasmText fmtG s p maxlen =
          if maxlen ≤ head.length then .ok (false, p, head.take (maxlen - 1))
          else .ok (true, shownPc s.program (instrEnd op p), (head ++ bytes (opName op) ++ rest).take (maxlen - 1))) →
          ∃ k, ∀ m, k < m → ∀ op, Visits s.program 0 p → s.program[p]? = some op.toByte →
            ∃ x, disasmText fmtG s p m = .ok (true, shownPc s.program (instrEnd op p), x) := by
        intro head h1
        refine ⟨head.length, fun m (hm : head.length < m) op' _ ho' => ?_⟩
        rw [ho] at ho'
        obtain rfl := Op.toByte_inj (Option.some.inj ho')
        have := h1 m
        rw [if_neg (Nat.not_le.2 hm)] at this
        exact ⟨_, this⟩
      exact h2 _ h1
    · exact ⟨0, fun m _ op h => absurd h hp⟩
  refine ⟨k, fun m hm => ?_⟩
  have H : ∀ p op, Visits s.program 0 p → s.program[p]? = some op.toByte →
      ∃ x, disasmText fmtG s p m = .ok (true, shownPc s.program (instrEnd op p), x) := fun p op hp ho =>
    hk m hm p (List.getElem?_eq_some_iff.1 ho).1 op hp ho
  obtain ⟨ls, k1, k2, k3⟩ := lists_from H (I.walk hne hsize) .here rfl
  refine ⟨ls, ?_, k2, k3⟩
  have : 0 < s.program.length := by
    have := I.halt hne
    cases h : s.program with
    | nil => rw [h] at this; cases this
    | cons => simp
  rw [if_neg (by omega)] at k1
  exact k1

/-! ## Example -/

namespace ListedEx

/-- Two sources' worth of instructions: a function with an argument, a call, a text, a jump. -/
def src : List UInt8 := bytes "func g(a : int) : int {\n return a }\nx := g(3)\ny := \"hi\"\nif x == 3 { x = 4 }\nstruct P { a : int b : int }\np := new P{1, 2}\np.b = p.a"

def after : TState := match compileString plainHost (some (bytes "g.tiny")) src { front := {} } with
  | .ok true s => s
  | _ => {}

theorem compiled : compileString plainHost (some (bytes "g.tiny")) src { front := {} } = .ok true after := by kernel_rfl

theorem parsed : (match parseProgram plainHost.fuel ⟨sourceTokens plainHost.strtod src, {}⟩ with
    | .ok [.node _ (.proc _ _ _ _ _), .node _ (.assign _ _ _ _), .node _ (.assign _ _ _ _), .node _ (.ifThen _ _), .struct _ _,
        .node _ (.assign _ _ _ _), .node _ (.assign _ _ _ _)] _ => true
    | _ => false) = true := by kernel_rfl

theorem noUse {xs q} (h : parseProgram plainHost.fuel ⟨sourceTokens plainHost.strtod src, {}⟩ = .ok xs q) : NoUse xs := by
  have e := parsed
  rw [h] at e
  split at e
  · next k => cases k; intro a b c d hm; simp at hm
  · cases e

theorem filed : ∃ f ss, Filed { front := {} } after [(some (bytes "g.tiny"), f, ss)] := by
  have hm : ∀ xs q t, parseProgram plainHost.fuel ⟨sourceTokens plainHost.strtod src, {}⟩ = .ok xs q →
      useMacros plainHost xs { ({ front := {} } : TState) with nest := 1, front := q.st } = .ok () t →
      t = { ({ front := {} } : TState) with nest := 1, front := q.st } := fun xs q t h1 h2 => by
    rw [useMacros_none (noUse h1)] at h2
    cases h2
    rfl
  obtain ⟨xs, q, t, ss, f, h1, h2, h3⟩ := compile_true compiled
  have ht := Session1.tail_of (src := src) (strtod := plainHost.strtod) (by decide +kernel) (by decide +kernel)
  obtain rfl := hm xs q t h1 h2
  exact ⟨f, ss, by simpa using Filed.compile .start ht h1 h2 .start h3 compiled⟩

theorem written {f : Front} {ss : List Stmt} (h : Filed { front := {} } after [(some (bytes "g.tiny"), f, ss)]) :
    writtenLines [(some (bytes "g.tiny"), f, ss)] ≠ [] := by
  intro e
  obtain ⟨-, L, h1, -, -, h4⟩ := c65_lines .new h (by decide +kernel)
  rw [e] at h1
  cases h1
  have h4 := h4 0
  simp only [List.filter_nil, List.getLast?_nil] at h4
  have : getFileLineForPC after.lines 0 ≠ .nothing := by decide +kernel
  exact this h4

/-- The program, with what the disassembler looks up. -/
def shown : TState where
  front := { strings := [bytes "hi", bytes "g.tiny"] }
  program := [33, 44, 44, 44, 18, 0, 0, 0, 39, 44, 44, 44, 255, 255, 255, 255, 37, 36, 4, 44, 44, 44, 44, 44, 3, 0, 0, 0, 0, 0, 0, 0,
    35, 1, 44, 44, 0, 0, 0, 0, 42, 31, 44, 44, 0, 0, 0, 0, 10, 0, 31, 44, 1, 0, 0, 0, 32, 44, 44, 44, 0, 0, 0, 0, 4, 44, 44, 44, 44, 44, 44, 44,
    3, 0, 0, 0, 0, 0, 0, 0, 29, 34, 44, 44, 112, 0, 0, 0, 4, 44, 44, 44, 44, 44, 44, 44, 4, 0, 0, 0, 0, 0, 0, 0, 31, 44, 44, 44, 0, 0, 0, 0,
    6, 4, 44, 44, 44, 44, 44, 44, 2, 0, 0, 0, 0, 0, 0, 0, 11, 2, 31, 44, 2, 0, 0, 0, 32, 44, 44, 44, 2, 0, 0, 0, 12, 0, 32, 44, 2, 0, 0, 0, 13, 1, 43]
  lines := [⟨0, some 1, 1⟩, ⟨8, some 1, 2⟩, ⟨18, some 1, 3⟩, ⟨48, some 1, 4⟩, ⟨56, some 1, 5⟩, ⟨88, some 1, 5⟩,
    ⟨112, some 1, 7⟩, ⟨136, some 1, 8⟩]
  functionPcs := [8]

theorem shown_eq : after.program = shown.program ∧ after.lines = shown.lines ∧ after.functionPcs = shown.functionPcs ∧
    after.front.strings = shown.front.strings := ⟨by kernel_rfl, by kernel_rfl, by kernel_rfl, by kernel_rfl⟩

theorem noShifts : ∀ p, Visits after.program 0 p → after.program[p]? ≠ some Op.shl.toByte ∧ after.program[p]? ≠ some Op.shr.toByte := by
  rw [shown_eq.1]
  have h : ∀ p ∈ Example.starts shown.program 200 0, shown.program[p]? ≠ some Op.shl.toByte ∧ shown.program[p]? ≠ some Op.shr.toByte := by
    decide +kernel
  have hn : shown.program.length < 200 := by decide +kernel
  intro p hp
  by_cases hl : p ≤ shown.program.length
  · exact h p (Example.starts_mem 200 0 p hp (by omega) hl)
  · have : shown.program[p]? = none := List.getElem?_eq_none_iff.2 (by omega)
    simp [this]

/-- The hypotheses of both theorems hold of it. -/
theorem listed (fmtG : BitVec 64 → List UInt8) :
    ∃ least, ∀ maxlen, least < maxlen → ∃ ls, Lists fmtG after maxlen 0 ls ∧ (ls.map Prod.fst).Pairwise (· < ·) ∧
      ∀ p, p ∈ ls.map Prod.fst ↔ Visits after.program 0 p ∧ p < after.program.length := by
  obtain ⟨f, ss, h⟩ := filed
  refine c67_program .new h (written h) (by simp) (by decide +kernel) (by decide +kernel) (by decide +kernel) (by decide +kernel)
    (fun n t i hm => ?_) (fun fi hm => ?_) fmtG (fun n fs hm => ?_) noShifts
  · have : ∀ x ∈ after.front.syms, (match x with | .const _ _ _ => false | _ => true) = true := by decide +kernel
    exact absurd (this _ hm) (by simp)
  · have : ∀ x ∈ after.front.syms, (match x with | .func fi => decide (fi.args.length ≤ 2 ^ 31) | _ => true) = true := by decide +kernel
    simpa using this _ hm
  · have : ∀ x ∈ after.front.syms, (match x with | .struct _ _ fs => decide (fs.length % 256 ≠ 0) | _ => true) = true := by decide +kernel
    simpa using this _ hm

/-- Some of its lines: the argument in the function, the call, the text, the new struct, and its second field. -/
example : disasmText (fun _ => []) shown 8 100 = .ok (true, 16, bytes "8 (g.tiny:2)\tGETLOCAL -1") ∧
    disasmText (fun _ => []) shown 32 100 = .ok (true, 40, bytes "32 (g.tiny:3)\tCALL 1 0 (8)") ∧
    disasmText (fun _ => []) shown 48 100 = .ok (true, 50, bytes "48 (g.tiny:4)\tPUSH_STRING_FF 0 (\"hi\")") ∧
    disasmText (fun _ => []) shown 128 100 = .ok (true, 130, bytes "128 (g.tiny:7)\tPUSH_STRUCT 2") ∧
    disasmText (fun _ => []) shown 152 100 = .ok (true, 154, bytes "152 (g.tiny:8)\tSTRUCT_SET 1") := by decide +kernel

/-- With a function which was not entered into the table, its call cannot be listed. -/
example : disasmText (fun _ => []) { shown with functionPcs := [] } 32 100 = .ub := by decide +kernel

end ListedEx

end Tiny
