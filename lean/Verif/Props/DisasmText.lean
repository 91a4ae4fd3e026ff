import Verif.Spec.DisasmText
import Verif.Proofs.StdPrint

/-!
# C62: the text of a listing
-/

namespace Tiny
open Spec

theorem nameOf_bytes (t : String) : nameOf t = bytes t := rfl

theorem fmtD_decimal {n : Nat} (h : n < 2 ^ 31) : fmtD n = decimal n := by
  have e : (BitVec.ofNat 32 n).toInt = n := by
    have := BitVec.toInt_eq_toNat_of_lt (x := BitVec.ofNat 32 n) (by rw [BitVec.toNat_ofNat]; omega)
    rw [this, BitVec.toNat_ofNat]; omega
  rw [fmtD, e, number_fmt, number, if_neg (by omega), Int.natAbs_natCast]

theorem opText_name {op : Op} (h : op ≠ .shl ∧ op ≠ .shr) : opText op = bytes (opName op) := by
  cases op <;> first | rfl | exact absurd rfl h.1 | exact absurd rfl h.2

theorem foreign_find {f : Name} {i : Nat} {ts : List Tag} {va : Bool} {r : Tag} : ∀ {syms : List Sym}, Sym.foreign f i ts va r ∈ syms →
    (∀ f' ts' va' r', Sym.foreign f' i ts' va' r' ∈ syms → f' = f) → syms.findSome? (Sym.foreignName i) = some f
  | [], h, _ => by cases h
  | x :: xs, h, hu => by
    rw [List.findSome?_cons]
    cases hx : x.foreignName i with
    | some g =>
      cases x with
      | «foreign» n j ts' va' r' =>
        simp only [Sym.foreignName] at hx
        split at hx
        · rename_i hj; subst hj; cases hx
          rw [hu _ _ _ _ List.mem_cons_self]
        · cases hx
      | _ => simp [Sym.foreignName] at hx
    | none =>
      rcases List.mem_cons.1 h with h | h
      · rw [← h] at hx; simp [Sym.foreignName] at hx
      · exact foreign_find h fun f' ts' va' r' hm => hu f' ts' va' r' (List.mem_cons_of_mem _ hm)

theorem disasmInstr_shows {fmtG : BitVec 64 → List UInt8} {s : TState} {l : Listing} {x : List UInt8} (h : ShowsOperands fmtG s l.op l.operands x)
    (hs : l.op ≠ .shl ∧ l.op ≠ .shr) : disasmInstr fmtG s l = .ok (bytes (opName l.op) ++ x) := by
  obtain ⟨op, ns⟩ := l
  simp only at h hs
  cases h with
  | none =>
    rw [List.append_nil, ← opText_name hs]
    cases op <;> rfl
  | @char c hc =>
    show Res.ok (nameOf "PUSH_CHAR '" ++ [UInt8.ofNat c] ++ nameOf "'") = _
    rw [show nameOf "PUSH_CHAR '" = bytes "PUSH_CHAR" ++ bytes " '" from by decide +kernel]
    simp only [nameOf_bytes, List.append_assoc, opName]
  | @int i =>
    show Res.ok (nameOf "PUSH_INT " ++ Std.fmtInt (BitVec.ofNat 64 i.toNat).toInt) = _
    rw [BitVec.ofNat_toNat, BitVec.setWidth_eq, number_fmt, show nameOf "PUSH_INT " = bytes "PUSH_INT" ++ bytes " " from by decide +kernel]
    simp only [List.append_assoc, opName]
  | @float f =>
    show Res.ok (nameOf "PUSH_FLOAT " ++ fmtG (BitVec.ofNat 64 f.toNat)) = _
    rw [BitVec.ofNat_toNat, BitVec.setWidth_eq, show nameOf "PUSH_FLOAT " = bytes "PUSH_FLOAT" ++ bytes " " from by decide +kernel]
    simp only [List.append_assoc, opName]
  | @string op i t ho hi ht =>
    have e : disasmString s op i = .ok (bytes (opName op) ++ (bytes " " ++ decimal i ++ bytes " (\"" ++ t ++ bytes "\")")) := by
      rw [disasmString, ht]
      simp only [fmtD_decimal hi, opText_name hs, nameOf_bytes, List.append_assoc]
    rcases ho with rfl | rfl <;> exact e
  | @number op n hm hn =>
    rw [← opText_name hs, ← fmtD_decimal hn]
    simp only [List.mem_cons, List.not_mem_nil, or_false] at hm
    rcases hm with rfl | rfl | rfl | rfl | rfl | rfl | rfl | rfl | rfl | rfl | rfl <;> exact congrArg Res.ok (List.append_assoc _ _ _)
  | @call k i p hk hi hp hp2 =>
    show (match s.functionPcs[i]? with | none => Res.ub | some p => .ok (nameOf "CALL " ++ fmtD k ++ nameOf " " ++ fmtD i ++ nameOf " (" ++ fmtD p ++ nameOf ")")) = _
    rw [hp]
    simp only [fmtD_decimal hi, fmtD_decimal hp2, fmtD_decimal (show k < 2 ^ 31 by omega)]
    rw [show nameOf "CALL " = bytes "CALL" ++ bytes " " from by decide +kernel]
    simp only [nameOf_bytes, List.append_assoc, opName]
  | @callf k i f ts va r hk hf hu =>
    show (match s.front.syms.findSome? (Sym.foreignName i) with | none => Res.ub | some f => .ok (nameOf "CALLF " ++ f ++ nameOf "(" ++ fmtD k ++ nameOf ")")) = _
    rw [foreign_find hf hu]
    simp only [fmtD_decimal (show k < 2 ^ 31 by omega)]
    rw [show nameOf "CALLF " = bytes "CALLF" ++ bytes " " from by decide +kernel]
    simp only [nameOf_bytes, List.append_assoc, opName]

/-- **C62.** Whatever the state, the address and the size of the buffer: if `Tiny_DisasmOne` returns, it has written at most `maxlen`
bytes, the NUL included. -/
theorem c62_buffer {fmtG : BitVec 64 → List UInt8} {s : TState} {pc pc' : Int} {maxlen : Nat} {b : Bool} {x : List UInt8}
    (h : disasmText fmtG s pc maxlen = .ok (b, pc', x)) : x.length < maxlen ∨ maxlen = 0 ∧ x = [] := by
  have hsn : ∀ (m : Nat) (y : List UInt8), (snprintfN m y).length < m ∨ m = 0 ∧ snprintfN m y = [] := by
    intro m y
    rcases Nat.eq_zero_or_pos m with rfl | hm
    · right; simp [snprintfN]
    · left; simp [snprintfN]; omega
  have hsn2 : ∀ (head y : List UInt8), ¬ maxlen ≤ head.length → (head ++ snprintfN (maxlen - head.length) y).length < maxlen := by
    intro head y hh
    rcases hsn (maxlen - head.length) y with h | ⟨h, _⟩
    · rw [List.length_append]; omega
    · omega
  rw [disasmText] at h
  split at h
  · cases h; exact hsn _ _
  · obtain ⟨⟨file, line⟩, h1, h⟩ := Res.bind_eq_ok.1 h
    cases file with
    | none => cases h
    | some t =>
      simp only at h
      split at h
      · cases h; exact hsn _ _
      · rename_i hm
        obtain ⟨c, h2, h⟩ := Res.bind_eq_ok.1 h
        cases hop : Op.ofByte c with
        | none => rw [hop] at h; cases h; exact .inl (hsn2 _ _ hm)
        | some op =>
          rw [hop] at h
          obtain ⟨r, h3, h⟩ := Res.bind_eq_ok.1 h
          cases r with
          | none => cases h; exact .inl (hsn2 _ _ hm)
          | some r =>
            obtain ⟨y, h4, h⟩ := Res.bind_eq_ok.1 h
            cases h; exact .inl (hsn2 _ _ hm)

theorem take_head {head x : List UInt8} {m : Nat} (h : ¬ m ≤ head.length) : head ++ snprintfN (m - head.length) x = (head ++ x).take (m - 1) := by
  have e : (head ++ x).take (m - 1) = head.take (m - 1) ++ x.take (m - 1 - head.length) := List.take_append
  rw [e, List.take_of_length_le (l := head) (by omega), snprintfN, show m - head.length - 1 = m - 1 - head.length by omega]

/-- **C62.** An instruction the disassembler lists (C19) is written as address, file and line, the name of the instruction and its
operands - strings and functions with what their numbers stand for -, cut off at the end of the buffer. If not even the position
fits, the result is false and the address stays. -/
theorem c62_text {fmtG : BitVec 64 → List UInt8} {s : TState} {pc : Nat} {next : Int} {l : Listing} {file x : List UInt8} {line : Nat}
    (hl : disasmOne s.program pc = .ok (some (l, next))) (hsrc : SourceOf s pc file line) (hx : ShowsOperands fmtG s l.op l.operands x)
    (hop : l.op ≠ .shl ∧ l.op ≠ .shr) (maxlen : Nat) :
    disasmText fmtG s pc maxlen =
      if maxlen ≤ (lineHead pc file line).length then .ok (false, pc, (lineHead pc file line).take (maxlen - 1))
      else .ok (true, next, (lineHead pc file line ++ bytes (opName l.op) ++ x).take (maxlen - 1)) := by
  obtain ⟨i, hi, hfile, hline⟩ := hsrc
  rw [disasmOne] at hl
  by_cases hb : ((pc : Int) < 0 ∨ (s.program.length : Int) ≤ pc)
  · rw [if_pos hb] at hl; cases hl
  rw [if_neg hb] at hl
  obtain ⟨c, h2, hl⟩ := Res.bind_eq_ok.1 hl
  have hfl : fileLine s pc = .ok (some file, line) := by rw [fileLine, hi]; simp only [hfile]
  have hhead : Std.fmtInt (pc : Int) ++ nameOf " (" ++ file ++ nameOf ":" ++ fmtD line ++ nameOf ")\t" = lineHead pc file line := by
    rw [number_fmt, number, if_neg (by omega), Int.natAbs_natCast, fmtD_decimal hline]; rfl
  rw [disasmText, if_neg hb, hfl, Res.bind_ok]
  simp only [hhead]
  split
  · rfl
  · rename_i hm
    rw [h2, Res.bind_ok]
    cases hop2 : Op.ofByte c with
    | none => rw [hop2] at hl; cases hl
    | some op =>
      rw [hop2] at hl
      obtain ⟨r, h3, hl⟩ := Res.bind_eq_ok.1 hl
      cases r with
      | none => cases hl
      | some r =>
        simp only [Res.ok.injEq, Option.some.injEq, Prod.mk.injEq] at hl
        obtain ⟨hl1, hl2⟩ := hl
        simp only [h3, Res.bind_ok]
        rw [hl1, disasmInstr_shows hx hop, Res.bind_ok, take_head hm, ← List.append_assoc, hl2]

/-- **C62.** A smaller buffer gets the beginning of what a larger one gets. -/
theorem c62_cut {fmtG : BitVec 64 → List UInt8} {s : TState} {pc p1 p2 : Int} {m n : Nat} (hmn : m ≤ n) {b1 b2 : Bool} {x y : List UInt8}
    (h1 : disasmText fmtG s pc m = .ok (b1, p1, x)) (h2 : disasmText fmtG s pc n = .ok (b2, p2, y)) : x <+: y := by
  have hp : ∀ z : List UInt8, z.take (m - 1) <+: z.take (n - 1) := fun z => List.take_prefix_take_left (by omega)
  rw [disasmText] at h1 h2
  split at h1
  · rename_i hc
    rw [if_pos hc] at h2
    cases h1; cases h2; exact hp _
  · rename_i hc
    rw [if_neg hc] at h2
    obtain ⟨⟨file, line⟩, e1, h1⟩ := Res.bind_eq_ok.1 h1
    rw [e1, Res.bind_ok] at h2
    cases file with
    | none => cases h1
    | some t =>
      simp only at h1 h2
      generalize Std.fmtInt pc ++ nameOf " (" ++ t ++ nameOf ":" ++ fmtD line ++ nameOf ")\t" = head at h1 h2
      by_cases hm : m ≤ head.length
      · have hh : ∀ z, head.take (m - 1) <+: (head ++ z).take (n - 1) := by
          intro z
          rw [← List.take_append_of_le_length (l₂ := z) (show m - 1 ≤ head.length by omega)]
          exact hp _
        rw [if_pos hm] at h1
        cases h1
        by_cases hn : n ≤ head.length
        · rw [if_pos hn] at h2; cases h2; exact hp _
        · rw [if_neg hn] at h2
          obtain ⟨c, e2, h2⟩ := Res.bind_eq_ok.1 h2
          simp only [take_head hn] at h2
          cases hop : Op.ofByte c with
          | none => rw [hop] at h2; cases h2; exact hh _
          | some op =>
            rw [hop] at h2
            obtain ⟨r, e3, h2⟩ := Res.bind_eq_ok.1 h2
            cases r with
            | none => cases h2; exact hh _
            | some r =>
              obtain ⟨z, e4, h2⟩ := Res.bind_eq_ok.1 h2
              cases h2; exact hh _
      · have hn : ¬ n ≤ head.length := by omega
        rw [if_neg hm] at h1
        rw [if_neg hn] at h2
        obtain ⟨c, e2, h1⟩ := Res.bind_eq_ok.1 h1
        rw [e2, Res.bind_ok] at h2
        simp only [take_head hn, take_head hm] at h1 h2
        cases hop : Op.ofByte c with
        | none => rw [hop] at h1 h2; cases h1; cases h2; exact hp _
        | some op =>
          rw [hop] at h1 h2
          obtain ⟨r, e3, h1⟩ := Res.bind_eq_ok.1 h1
          simp only [e3, Res.bind_ok] at h2
          cases r with
          | none => cases h1; cases h2; exact hp _
          | some r =>
            obtain ⟨z, e4, h1⟩ := Res.bind_eq_ok.1 h1
            simp only [e4, Res.bind_ok] at h2
            cases h1; cases h2; exact hp _

/-- **C62.** For a source compiled without a file name, NULL is given to `%s`: undefined (in practice `(null)`). -/
theorem c62_defect_file {fmtG : BitVec 64 → List UInt8} {s : TState} {pc : Nat} {line : Nat} (h : pc < s.program.length)
    (hf : getFileLineForPC s.lines pc = .found none line ∨ s.lines = []) (maxlen : Nat) : disasmText fmtG s pc maxlen = .ub := by
  rw [disasmText, if_neg (by omega)]
  rcases hf with hf | hf
  · rw [fileLine, hf]; rfl
  · rw [fileLine, hf, getFileLineForPC, if_pos (.inr rfl)]; rfl

/-! ## A listing -/

namespace ListingExample

/-- `PUSH_STRING_FF 1`, `CALL 1 0`, `HALT`, from lines 3 and 4 of `a.tiny`. -/
def state : TState where
  front := { strings := [bytes "a.tiny", bytes "hi"] }
  program := [Op.pushStringFF.toByte, 1, Op.call.toByte, 1, 0, 0, 0, 0, Op.halt.toByte]
  lines := [⟨0, some 0, 3⟩, ⟨8, some 0, 4⟩]
  functionPcs := [8]

theorem listed0 : disasmOne state.program 0 = .ok (some (⟨.pushStringFF, [1]⟩, 2)) := by decide +kernel

theorem listed2 : disasmOne state.program 2 = .ok (some (⟨.call, [1, 0]⟩, 8)) := by decide +kernel

example (fmtG : BitVec 64 → List UInt8) : disasmText fmtG state 0 100 = .ok (true, 2, bytes "0 (a.tiny:3)\tPUSH_STRING_FF 1 (\"hi\")") := by
  have := c62_text (fmtG := fmtG) (line := 3) listed0 ⟨0, by decide +kernel, rfl, by decide⟩ (.string (.inr rfl) (by decide) rfl) (by decide) 100
  rw [show ((0 : Nat) : Int) = 0 from rfl] at this
  rw [this]
  decide +kernel

example (fmtG : BitVec 64 → List UInt8) : disasmText fmtG state 2 19 = .ok (true, 8, bytes "2 (a.tiny:3)\tCALL ") := by
  have := c62_text (fmtG := fmtG) (line := 3) listed2 ⟨0, by decide +kernel, rfl, by decide⟩ (.call (by decide) (by decide) rfl (by decide)) (by decide) 19
  rw [show ((2 : Nat) : Int) = 2 from rfl] at this
  rw [this]
  decide +kernel

/-- A buffer too small for the position. -/
example : disasmText (fun _ => []) state 8 8 = .ok (false, 8, bytes "8 (a.ti") := by decide +kernel

end ListingExample

end Tiny
