import Verif.Model.Disasm
import Verif.Proofs.WalkRun
import Verif.Props.Compile

/-!
# C18, C19, C42: the layout of bytecode
-/

namespace Tiny
open Spec

/-! ## C18: operands survive encoding -/

/-- **C18, operands.** An instruction with an operand of `n` bytes generated after any program, followed by any
code: the operand is at a multiple of `n`, the interpreter reads it back (modulo the width) and goes on at the end of
the instruction, and nothing written before changes. -/
theorem c18_operand {op : Op} {n v p : Nat} {s s' : CS} (hn : 0 < n)
    (h : (do genOp op; genValue n v : CG Nat) s = .ok p s') (later : List UInt8) :
    p % n = 0 ∧ s.program.length < p ∧ p + n = s'.program.length ∧
    (∀ k, k < s.program.length → s'.program[k]? = s.program[k]?) ∧
    readByte (s'.program ++ later) s.program.length = .ok op.toByte ∧
    readValueAt (s'.program ++ later) (s.program.length + 1) n = .ok (v % 256 ^ n, s'.program.length) := by
  obtain ⟨_, s1, h1, h2⟩ := CG.bind_ok.1 h
  obtain ⟨e, a, hp, hl⟩ := genOpV_ok hn h1 h2
  have hle := le_alignUp (s.program.length + 1) n hn
  refine ⟨by rw [hp]; exact alignUp_mod _ _, by omega, hl.symm, e.agree, ?_, ?_⟩
  · rw [readByte_eq, List.getElem?_append_left (by omega)]; exact a.1
  · rw [readValueAt_agree (P := s'.program) fun k h1 h2 => by rw [List.getElem?_append_left (by omega)]]
    exact a.2.2

/-- A number which fits its width is read back unchanged. -/
theorem c18_operand_fits {op : Op} {n v p : Nat} {s s' : CS} (hn : 0 < n) (hv : v < 256 ^ n)
    (h : (do genOp op; genValue n v : CG Nat) s = .ok p s') (later : List UInt8) :
    readValueAt (s'.program ++ later) (s.program.length + 1) n = .ok (v, s'.program.length) := by
  rw [(c18_operand hn h later).2.2.2.2.2, Nat.mod_eq_of_lt hv]

/-- An 8-byte operand after 4 bytes of program: three bytes of padding. -/
example : ∃ s', (do genOp .pushInt; genValue 8 7 : CG Nat) { program := [0, 0, 0, 0] } = .ok 8 s' ∧
    s'.program = [0, 0, 0, 0, 4, 44, 44, 44, 7, 0, 0, 0, 0, 0, 0, 0] := ⟨_, rfl, by decide⟩

/-- **C18, calls.** The same for instructions with a byte and a number. -/
theorem c18_call {op : Op} {b : UInt8} {v p : Nat} {s s' : CS}
    (h : (do genOp op; genByte b; genValue 4 v : CG Nat) s = .ok p s') (later : List UInt8) :
    (∀ k, k < s.program.length → s'.program[k]? = s.program[k]?) ∧
    readByte (s'.program ++ later) s.program.length = .ok op.toByte ∧
    readByte (s'.program ++ later) (s.program.length + 1) = .ok b ∧
    readValueAt (s'.program ++ later) (s.program.length + 2) 4 = .ok (v % 2 ^ 32, s'.program.length) := by
  obtain ⟨_, s1, h1, h⟩ := CG.bind_ok.1 h
  obtain ⟨_, s2, h2, h3⟩ := CG.bind_ok.1 h
  obtain ⟨e, a⟩ := genOpBV_ok h1 h2 h3
  have hnext := readValueAt_next a.2.2
  have hle := le_alignUp (s.program.length + 2) 4 (by omega)
  refine ⟨e.agree, ?_, ?_, ?_⟩
  · rw [readByte_eq, List.getElem?_append_left (by omega)]; exact a.1
  · rw [readByte_eq, List.getElem?_append_left (by omega)]; exact a.2.1
  · rw [readValueAt_agree (P := s'.program) fun k h1 h2 => by rw [List.getElem?_append_left (by omega)]]
    exact a.2.2

/-- **C18, jumps.** A jump is generated, any code is generated after it, then it is patched: it reads back as its
final target, and the patch changes only the four operand bytes. -/
theorem c18_patch {op : Op} {d v p : Nat} {s s1 s2 s3 : CS} (h1 : genJump op d s = .ok p s1)
    (hlater : s1.program <+: s2.program) (h2 : patchJump p v s2 = .ok () s3) :
    s3.program.length = s2.program.length ∧
    (∀ k, k < p ∨ p + 4 ≤ k → s3.program[k]? = s2.program[k]?) ∧ s.program.length < p ∧
    s3.program[s.program.length]? = some op.toByte ∧
    readValueAt s3.program (s.program.length + 1) 4 = .ok (v % 2 ^ 32, s1.program.length) := by
  obtain ⟨e, hp, hl, hop, hv, hlt⟩ := genJump_ok h1
  have q := patchJump_ok h2
  obtain ⟨r, hr⟩ := hlater
  refine ⟨q.len, q.agree, hlt, ?_, ?_⟩
  · rw [q.agree _ (.inl hlt), ← hr, List.getElem?_append_left (by omega)]; exact hop
  · unfold readValueAt
    simp only [← hp, q.val, Res.bind_ok, hl]

/-- Patching never fails on a jump just generated. -/
theorem c18_patch_succeeds {op : Op} {d v p : Nat} {s s1 s2 : CS} (h1 : genJump op d s = .ok p s1)
    (hlater : s1.program <+: s2.program) : ∃ s3, patchJump p v s2 = .ok () s3 := by
  obtain ⟨e, hp, hl, hop, hv, hlt⟩ := genJump_ok h1
  obtain ⟨r, hr⟩ := hlater
  unfold patchJump
  have : p % 4 = 0 := by rw [hp]; exact alignUp_mod _ _
  have hlen : s2.program.length = s1.program.length + r.length := by rw [← hr, List.length_append]
  rw [if_neg (by omega), if_pos (by omega)]
  exact ⟨_, rfl⟩

/-! ## C42: jumps land on instructions -/

/-- **C42, expressions.** The code of an expression is a sequence of whole instructions, and all its jumps go to
instructions of this code or to just after it. -/
theorem c42_expression {g : Globals} {e : Expr} {s s' : CS} (h : compileE g e s = .ok () s')
    (hl : s'.program.length < 2 ^ 32) :
    let P := s'.program
    Visits P s.program.length P.length ∧
    ∀ p d, Visits P s.program.length p → p < P.length → jumpTarget P p = some d →
      Visits P s.program.length d ∧ d ≤ P.length := by
  obtain ⟨_, hat⟩ := compileE_made g e s s' h
  have k := (hat hl fun _ => none).closed
  refine ⟨k.walk, fun p d h1 h2 h3 => ?_⟩
  rcases k.jumps p d h1 h2 h3 with h | h
  · exact h
  · exact h.elim

/-- **C42, statements.** The same for statements in which every `break` and `continue` is in a loop. -/
theorem c42_statement {g : Globals} {st a : Stmt} {s s' : CS} (h : compileS g st s = .ok a s')
    (hl : s'.program.length < 2 ^ 32) (hids : ((procs st).map Prod.fst).Nodup)
    (he : escapes st = false) (hlost : lost st = false) :
    let P := s'.program
    Visits P s.program.length P.length ∧
    ∀ p d, Visits P s.program.length p → p < P.length → jumpTarget P p = some d →
      Visits P s.program.length d ∧ d ≤ P.length := by
  obtain ⟨_, _, _, hat⟩ := compileS_made g st s s' a h
  have k := (hat hl hids (fun i => s'.functionPcs[i]?) fun i _ => rfl).closed
  refine ⟨k.walk, fun p d h1 h2 h3 => ?_⟩
  rcases k.jumps p d h1 h2 h3 with h | h
  · exact h
  · simp [Item.exits, he, hlost] at h

/-- What is said of whole programs. -/
structure WellLaid (P : List UInt8) (entries : List Nat) : Prop where
  /-- The program is a sequence of whole instructions. -/
  walk : Visits P 0 P.length
  /-- All jumps go to instructions of the program. -/
  jumps : ∀ p d, Visits P 0 p → p < P.length → jumpTarget P p = some d → Visits P 0 d ∧ d < P.length
  /-- All functions are entered at instructions of the program. -/
  entry : ∀ q ∈ entries, Visits P 0 q ∧ q < P.length
  /-- The last instruction is `HALT`… -/
  last : ∃ q, q + 1 = P.length ∧ Visits P 0 q ∧ P[q]? = some Op.halt.toByte
  /-- …and no other is. -/
  halt : ∀ p, Visits P 0 p → P[p]? = some Op.halt.toByte → p + 1 = P.length
  /-- No instruction is padding. -/
  padding : ∀ p, Visits P 0 p → p < P.length → P[p]? ≠ some Op.misaligned.toByte

theorem Spec.BuiltFrom.wellLaid {us : List (Globals × Nat × List Stmt)} {c : Ctx} {env : Env} (L : BuiltFrom us c env) :
    WellLaid env.program (((procsL (allStmts us)).map Prod.fst).filterMap fun i => env.functionPcs[i]?) := by
  obtain ⟨fin, as, hat, hh⟩ := L.code
  have k := hat.closed
  have hn := hh.nextInstr rfl
  obtain ⟨h1, h2⟩ := hh
  have w : Visits env.program 0 env.program.length := k.walk.trans (.one hn)
  refine ⟨w, fun p d hp hl hj => ?_, fun q hq => ?_, ⟨fin, h2.symm, k.walk, h1⟩, fun p hp he => ?_, fun p hp hl => ?_⟩
  · by_cases hf : p < fin
    · rcases k.jumps p d hp hf hj with ⟨h, h'⟩ | h
      · exact ⟨h, by omega⟩
      · have : d = 0 := by
          simp only [Item.exits] at h
          rcases h with ⟨_, h | h⟩ | ⟨_, h⟩ <;> exact h
        subst this
        exact ⟨.here, by omega⟩
    · obtain rfl : p = fin := by omega
      unfold jumpTarget at hj
      rw [h1] at hj
      simp [Op.ofByte_toByte] at hj
  · obtain ⟨i, hi, hq⟩ := List.mem_filterMap.1 hq
    obtain ⟨⟨i, fn⟩, hm, rfl⟩ := List.mem_map.1 hi
    obtain ⟨q', hq', hv, hlt⟩ := hat.entries (i, fn) hm
    simp only at hq hq'
    rw [hq] at hq'; cases hq'
    exact ⟨hv, by omega⟩
  · by_cases hf : p < fin
    · exact absurd he (k.ops p hp hf).2
    · have := (List.getElem?_eq_some_iff.1 he).1
      omega
  · by_cases hf : p < fin
    · exact (k.ops p hp hf).1
    · obtain rfl : p = fin := by omega
      rw [h1]
      decide

/-- **C42, programs.** For any number of sources compiled into one state – whatever they contain – the program is a
sequence of whole instructions, its jumps and function entries are instructions of it, `HALT` is its last instruction
and no other, and none is padding. -/
theorem c42_program {us : List (Globals × Nat × List Stmt)} {c : Ctx} {env : Env} (L : BuiltFrom us c env) :
    WellLaid env.program (((procsL (allStmts us)).map Prod.fst).filterMap fun i => env.functionPcs[i]?) := L.wellLaid

/-- Where a thread may be: stopped, or at an instruction of the program. -/
def OnInstr (P : List UInt8) (pc : Int) : Prop := pc = -1 ∨ ∃ p : Nat, pc = (p : Nat) ∧ Visits P 0 p ∧ p < P.length

theorem nextInstr_of_visited {P : List UInt8} {es : List Nat} (W : WellLaid P es) {p : Nat} {op : Op} (hp : Visits P 0 p)
    (hop : P[p]? = some op.toByte) (ho : op ≠ .halt) :
    nextInstr P p = some (instrEnd op p) ∧ Visits P 0 (instrEnd op p) ∧ instrEnd op p < P.length := by
  have hlt := (List.getElem?_eq_some_iff.1 hop).1
  obtain ⟨q, hq, hvq, hopq⟩ := W.last
  have hv := hp.linear hvq (by omega)
  cases hv with
  | here =>
    rw [hop] at hopq
    exact absurd (Op.toByte_inj (Option.some.inj hopq)) ho
  | @next _ b _ h1 h2 =>
    obtain ⟨op', hop', hb, hle⟩ := nextInstr_some h1
    rw [hop] at hop'
    obtain rfl := Op.toByte_inj (Option.some.inj hop')
    have := h2.le
    subst hb
    exact ⟨h1, hp.trans (.one h1), by omega⟩

theorem visited_op {P : List UInt8} (hw : Visits P 0 P.length) {p : Nat} (hp : Visits P 0 p) (hl : p < P.length) :
    ∃ op : Op, P[p]? = some op.toByte := by
  cases hp.linear hw (by omega) with
  | here => omega
  | next h1 h2 =>
    obtain ⟨op, hop, _⟩ := nextInstr_some h1
    exact ⟨op, hop⟩

/-- The thread is at an instruction or stopped, and so are all frames it will return to. -/
def OnTrack (P : List UInt8) (t : Thread) : Prop := OnInstr P t.pc ∧ ∀ f ∈ t.frames, OnInstr P f.pc

theorem OnTrack.exec {env : Env} {es : List Nat} (W : WellLaid env.program es) (hsz : env.program.length < 2 ^ 31)
    (hes : ∀ (i q : Nat), env.functionPcs[i]? = some q → q ∈ es)
    (hstr : ∀ p, Visits env.program 0 p → env.program[p]? ≠ some Op.pushString.toByte)
    {t u : Thread} (h : OnTrack env.program t) (h0 : 0 ≤ t.pc) (e : Tiny.exec env t = .ok u) : OnTrack env.program u := by
  obtain ⟨h, hf⟩ := h
  rcases h with h | ⟨p, hpc, hv, hl⟩
  · omega
  obtain ⟨op, hop⟩ := visited_op W.walk hv hl
  have hpn : t.pc.toNat = p := by omega
  have ho : op ≠ .pushString := by
    rintro rfl
    exact hstr p hv hop
  have step := exec_pc h0 (by rw [hpn]; exact hop) ho e
  rw [hpn] at step
  cases step with
  | seq h1 h2 h3 _ =>
    obtain ⟨_, h4, h5⟩ := nextInstr_of_visited W hv hop h3
    exact ⟨.inr ⟨_, h1, h4, h5⟩, by rw [h2]; exact hf⟩
  | jump d _ hj h1 h2 =>
    obtain ⟨h3, h4⟩ := W.jumps p d hv hl hj
    exact ⟨.inr ⟨d, by rw [h1, toPc_small (by omega)], h3, h4⟩, by rw [h2]; exact hf⟩
  | call f i q ho h1 h2 h3 h4 =>
    subst ho
    obtain ⟨h5, h6⟩ := W.entry q (hes i q h3)
    refine ⟨.inr ⟨q, h4, h5, h6⟩, ?_⟩
    rw [h2]
    intro f' hf'
    rcases List.mem_append.1 hf' with h | h
    · exact hf f' h
    · obtain rfl := List.mem_singleton.1 h
      obtain ⟨_, h7, h8⟩ := nextInstr_of_visited W hv hop (by simp)
      exact .inr ⟨_, h1, h7, h8⟩
  | ret f _ h1 h2 =>
    rw [h1] at hf
    exact ⟨by rw [h2]; exact hf f (by simp), fun f' hf' => hf f' (by simp [hf'])⟩
  | halt _ h1 h2 => exact ⟨.inl h1, by rw [h2]; exact hf⟩

/-- **C42, running.** A thread running a compiled program (with the garbage collector, from the start, after any number
of cycles) is stopped or at the start of an instruction of the program, never at padding, in the middle of an
operand or after the end – provided the program has no string constants with an index above 255
(`c20_defect_long_string`) and every function number belongs to a function of the sources. -/
theorem c42_running {us : List (Globals × Nat × List Stmt)} {c : Ctx} {env : Env} (L : BuiltFrom us c env)
    (hstr : ∀ p, Visits env.program 0 p → env.program[p]? ≠ some Op.pushString.toByte)
    (hall : ∀ i, i < env.functionPcs.length → i ∈ (procsL (allStmts us)).map Prod.fst)
    (numGlobals k : Nat) {u : Thread} (h : stepsGC env k (startThread numGlobals) = .ok u) :
    u.pc = -1 ∨ ∃ (p : Nat) (op : Op), u.pc = (p : Nat) ∧ Visits env.program 0 p ∧ env.program[p]? = some op.toByte ∧
      op ≠ .misaligned := by
  have W := L.wellLaid
  have hes : ∀ (i q : Nat), env.functionPcs[i]? = some q →
      q ∈ ((procsL (allStmts us)).map Prod.fst).filterMap fun i => env.functionPcs[i]? := by
    intro i q hq
    have := (List.getElem?_eq_some_iff.1 hq).1
    exact List.mem_filterMap.2 ⟨i, hall i this, hq⟩
  have key : ∀ (k : Nat) (t u : Thread), OnTrack env.program t → stepsGC env k t = .ok u → OnTrack env.program u := by
    intro k
    induction k with
    | zero => intro t u ht h; cases h; exact ht
    | succ k ih =>
      intro t u ht h
      rw [stepsGC] at h
      obtain ⟨⟨b, t1⟩, e1, h⟩ := Res.bind_eq_ok.1 h
      refine ih t1 u ?_ h
      unfold cycle at e1
      split at e1
      · cases e1; exact ht
      · obtain ⟨t2, e2, e1⟩ := Res.bind_eq_ok.1 e1
        obtain ⟨t3, e3, e1⟩ := Res.bind_eq_ok.1 e1
        cases e1
        obtain ⟨q1, q2, q3, q4⟩ := maybeCollect_same e3
        have := OnTrack.exec W L.size hes hstr ht (by omega) e2
        unfold OnTrack
        rw [q1, q3]
        exact this
  have hstart : OnTrack env.program (startThread numGlobals) := by
    obtain ⟨q, hq, _⟩ := W.last
    exact ⟨.inr ⟨0, rfl, .here, by omega⟩, by simp [startThread]⟩
  rcases (key k _ u hstart h).1 with h | ⟨p, h1, h2, h3⟩
  · exact .inl h
  · obtain ⟨op, hop⟩ := visited_op W.walk h2 h3
    refine .inr ⟨p, op, h1, h2, hop, ?_⟩
    rintro rfl
    exact W.padding p h2 h3 hop

/-! ## C19: the disassembler -/

/-- What `Tiny_DisasmOne` leaves in `*ppc` when the instruction ends at `next`. -/
def shownPc (P : List UInt8) (next : Nat) : Int := if P.length ≤ next then -1 else (next : Nat)

theorem disasmSwitch_spec {P : List UInt8} {pc : Nat} {op : Op} (hop : P[pc]? = some op.toByte)
    (hs : op ≠ .shl ∧ op ≠ .shr) (hfit : instrEnd op pc ≤ P.length)
    (hst : op = .pushStruct → P[pc + 1]? ≠ some 0) :
    ∃ l : Listing, l.op = op ∧ disasmSwitch P pc op = .ok (some (l, instrEnd op pc)) := by
  have none : ∀ o, operands o = .none → ∃ l : Listing, l.op = o ∧ disasmNoArgs o pc = .ok (some (l, instrEnd o pc)) := by
    intro o ho
    exact ⟨⟨o, []⟩, rfl, by simp [disasmNoArgs, instrEnd, ho]⟩
  have byte : ∀ o, operands o = .byte → instrEnd o pc ≤ P.length →
      ∃ l : Listing, l.op = o ∧ disasmByte P o pc = .ok (some (l, instrEnd o pc)) := by
    intro o ho hf
    simp only [instrEnd, ho] at hf ⊢
    refine ⟨⟨o, [(P[pc + 1]'(by omega)).toNat]⟩, rfl, ?_⟩
    simp [disasmByte, readByte_eq.2 (List.getElem?_eq_some_iff.2 ⟨by omega, rfl⟩ : P[pc + 1]? = some (P[pc + 1]'(by omega)))]
  have reads : ∀ n i, i + n ≤ P.length → ∃ v, readLE P i n = .ok v := by
    intro n
    induction n with
    | zero => intro i _; exact ⟨0, rfl⟩
    | succ n ih =>
      intro i hi
      obtain ⟨v, hv⟩ := ih (i + 1) (by omega)
      refine ⟨(P[i]'(by omega)).toNat + 256 * v, ?_⟩
      simp [readLE, readByte_eq.2 (List.getElem?_eq_some_iff.2 ⟨by omega, rfl⟩ : P[i]? = some (P[i]'(by omega))), hv]
  have value : ∀ o n, 0 < n → operands o = .number n → instrEnd o pc ≤ P.length →
      ∃ l : Listing, l.op = o ∧ disasmValue P n o pc = .ok (some (l, instrEnd o pc)) := by
    intro o n hn ho hf
    simp only [instrEnd, ho] at hf ⊢
    rw [alignedFrom_eq _ _ hn] at hf ⊢
    obtain ⟨v, hv⟩ := reads n _ hf
    exact ⟨⟨o, [v]⟩, rfl, by simp [disasmValue, readValueAt, hv]⟩
  have call : ∀ o, operands o = .byteNumber → instrEnd o pc ≤ P.length →
      ∃ l : Listing, l.op = o ∧ disasmCall P o pc = .ok (some (l, instrEnd o pc)) := by
    intro o ho hf
    simp only [instrEnd, ho] at hf ⊢
    have := le_alignUp (pc + 2) 4 (by omega)
    rw [alignedFrom_eq _ _ (by omega)] at hf ⊢
    obtain ⟨v, hv⟩ := reads 4 _ hf
    refine ⟨⟨o, [(P[pc + 1]'(by omega)).toNat, v]⟩, rfl, ?_⟩
    simp [disasmCall, readValueAt, hv,
      readByte_eq.2 (List.getElem?_eq_some_iff.2 ⟨by omega, rfl⟩ : P[pc + 1]? = some (P[pc + 1]'(by omega)))]
  cases op <;> simp only [disasmSwitch]
  case shl => exact absurd rfl hs.1
  case shr => exact absurd rfl hs.2
  case pushStruct =>
    obtain ⟨l, hl, hd⟩ := byte .pushStruct rfl hfit
    refine ⟨l, hl, ?_⟩
    simp only [instrEnd, operands] at hfit
    have hb : P[pc + 1]? = some (P[pc + 1]'(by omega)) := List.getElem?_eq_some_iff.2 ⟨by omega, rfl⟩
    rw [readByte_eq.2 hb]
    have hne : P[pc + 1]'(by omega) ≠ 0 := by
      intro h0
      rw [h0] at hb
      exact hst rfl hb
    have hpos : 0 < (P[pc + 1]'(by omega)).toNat := by
      rcases Nat.eq_zero_or_pos (P[pc + 1]'(by omega)).toNat with h | h
      · exact absurd (UInt8.toNat_inj.1 h) hne
      · exact h
    simp [Res.assert, hpos, hd]
  all_goals first
    | exact none _ rfl
    | exact byte _ rfl hfit
    | exact value _ 8 (by omega) rfl hfit
    | exact value _ 4 (by omega) rfl hfit
    | exact call _ rfl hfit

theorem disasmOne_spec {P : List UInt8} {pc : Nat} {op : Op} (hop : P[pc]? = some op.toByte)
    (hs : op ≠ .shl ∧ op ≠ .shr) (hfit : instrEnd op pc ≤ P.length)
    (hst : op = .pushStruct → P[pc + 1]? ≠ some 0) :
    ∃ l : Listing, l.op = op ∧ disasmOne P pc = .ok (some (l, shownPc P (instrEnd op pc))) := by
  obtain ⟨l, hl, hd⟩ := disasmSwitch_spec hop hs hfit hst
  have := (List.getElem?_eq_some_iff.1 hop).1
  refine ⟨l, hl, ?_⟩
  unfold disasmOne
  rw [if_neg (by omega), Int.toNat_natCast, readByte_eq.2 hop]
  simp [Op.ofByte_toByte, hd, shownPc]

/-- **C19, against the interpreter.** If the interpreter executes the instruction at `pc` – any instruction but the
shifts, which the disassembler does not know, and `PUSH_STRING`, see `c19_defect_long_string` – then the disassembler
shows this instruction, and leaves `pc` where the interpreter goes on if it does not jump: at the next instruction
(`-1` stands for the end of the program), which is the return address of a call. -/
theorem c19_interpreter {env : Env} {t u : Thread} {op : Op} (h0 : 0 ≤ t.pc)
    (hop : env.program[t.pc.toNat]? = some op.toByte) (hs : op ≠ .shl ∧ op ≠ .shr) (hstr : op ≠ .pushString)
    (he : exec env t = .ok u) (hfit : instrEnd op t.pc.toNat ≤ env.program.length) :
    ∃ (l : Listing) (next : Nat), disasmOne env.program t.pc = .ok (some (l, shownPc env.program next)) ∧ l.op = op ∧
      (op ∉ [.goto, .gotoz, .call, .ret, .retValue, .halt] → u.pc = next) ∧
      (op = .gotoz → u.pc = next ∨ ∃ d, l.operands = [d] ∧ u.pc = toPc d) ∧
      (op = .goto → ∃ d, l.operands = [d] ∧ u.pc = toPc d) ∧
      (op = .call → ∃ f, u.frames = t.frames ++ [f] ∧ f.pc = (next : Int)) := by
  have hst : op = .pushStruct → env.program[t.pc.toNat + 1]? ≠ some 0 := by
    rintro rfl h
    rw [exec_at (pc := t.pc.toNat) (by omega) hop, execOp, readByte_some h] at he
    simp [Res.assert] at he
  obtain ⟨l, hl, hd⟩ := disasmOne_spec hop hs hfit hst
  rw [Int.toNat_of_nonneg h0] at hd
  have step := exec_pc h0 hop hstr he
  have target : ∀ d, op = .goto ∨ op = .gotoz → jumpTarget env.program t.pc.toNat = some d → l.operands = [d] := by
    intro d ho hj
    have hd' := hd
    unfold disasmOne at hd'
    rw [if_neg (by have := (List.getElem?_eq_some_iff.1 hop).1; omega), readByte_eq.2 hop] at hd'
    simp only [Res.bind_ok, Op.ofByte_toByte] at hd'
    unfold jumpTarget at hj
    rw [hop] at hj
    simp only [Option.bind_some, Op.ofByte_toByte] at hj
    rcases ho with rfl | rfl <;>
    · simp only at hj
      rw [alignedFrom_eq _ _ (by omega)] at hj
      have := readLE_eq.2 hj
      simp only [disasmSwitch, disasmValue, readValueAt, this, Res.bind_ok] at hd'
      simp only [Res.ok.injEq, Option.some.injEq, Prod.mk.injEq] at hd'
      rw [← hd'.1]
  refine ⟨l, instrEnd op t.pc.toNat, hd, hl, ?_⟩
  cases step with
  | seq h1 h2 h3 h4 =>
    refine ⟨fun _ => h1, fun _ => .inl h1, fun h => absurd h h4, ?_⟩
    rintro rfl
    cases exec_frames he with
    | push f h _ => rw [h] at h2; simp at h2
    | pop f h => rw [h2] at h; simp at h
    | same h =>
      exfalso
      unfold exec at he
      rw [readByte_eq.2 hop] at he
      simp only [Res.bind_ok, Op.ofByte_toByte, execOp] at he
      obtain ⟨n, _, he⟩ := Res.bind_eq_ok.1 he
      obtain ⟨⟨i, pc'⟩, e0, he⟩ := Res.bind_eq_ok.1 he
      obtain ⟨t1, e1, he⟩ := Res.bind_eq_ok.1 he
      unfold pushIndir at e1
      dsimp only at e1 he
      split at e1
      · cases e1
        split at he
        · cases he; simp at h2
        · cases he
      · cases e1
  | jump d ho hj h1 h2 =>
    have := target d ho hj
    refine ⟨fun h => ?_, fun _ => .inr ⟨d, this, h1⟩, fun _ => ⟨d, this, h1⟩, fun h => ?_⟩
    · rcases ho with rfl | rfl <;> simp at h
    · rcases ho with rfl | rfl <;> cases h
  | call f i q ho h1 h2 h3 h4 =>
    subst ho
    exact ⟨fun h => by simp at h, fun h => (by cases h), fun h => (by cases h), fun _ => ⟨f, h2, h1⟩⟩
  | ret f ho h1 h2 =>
    rcases ho with rfl | rfl <;>
      exact ⟨fun h => by simp at h, fun h => (by cases h), fun h => (by cases h), fun h => (by cases h)⟩
  | halt ho h1 h2 =>
    subst ho
    exact ⟨fun h => by simp at h, fun h => (by cases h), fun h => (by cases h), fun h => (by cases h)⟩

/-- The instructions at which the disassembler gives up (shifts) or asserts (`PUSH_STRUCT 0`). -/
def Listable (P : List UInt8) : Prop :=
  ∀ p, Visits P 0 p → P[p]? ≠ some Op.shl.toByte ∧ P[p]? ≠ some Op.shr.toByte ∧
    (P[p]? = some Op.pushStruct.toByte → P[p + 1]? ≠ some 0)

theorem disasmAll_spec {P : List UInt8} (hs : Listable P) {a b : Nat} (h : Visits P a b) :
    Visits P 0 a → b = P.length → a < b →
    ∃ fuel ls, disasmAll P fuel a = .ok (ls, true) ∧ (ls.map Prod.fst).Pairwise (· < ·) ∧
      ∀ p : Int, p ∈ ls.map Prod.fst ↔ ∃ q : Nat, p = (q : Nat) ∧ Visits P a q ∧ q < P.length := by
  induction h with
  | here => intro _ _ h; omega
  | @next a m b h1 h2 ih =>
    intro hv hb _
    obtain ⟨op, hop, hm, hle⟩ := nextInstr_some h1
    obtain ⟨s1, s2, s3⟩ := hs a hv
    obtain ⟨l, hl, hd⟩ := disasmOne_spec hop ⟨by rintro rfl; exact s1 hop, by rintro rfl; exact s2 hop⟩ (hm ▸ hle)
      (by rintro rfl; exact s3 hop)
    have hlt := nextInstr_lt h1
    rw [← hm] at hd
    rcases Nat.lt_or_ge m b with hmb | hmb
    · obtain ⟨fuel, ls, e, hsort, hmem⟩ := ih (hv.trans (.one h1)) hb hmb
      refine ⟨fuel + 1, (a, l) :: ls, ?_, ?_, ?_⟩
      · rw [disasmAll, hd]
        simp only [Res.bind_ok]
        have : shownPc P m = (m : Nat) := by unfold shownPc; rw [if_neg (by omega)]
        rw [this, if_neg (by omega), e]
        rfl
      · simp only [List.map_cons, List.pairwise_cons]
        refine ⟨fun p hp => ?_, hsort⟩
        obtain ⟨q, rfl, hq, _⟩ := (hmem p).1 hp
        have := hq.le
        omega
      · intro p
        simp only [List.map_cons, List.mem_cons]
        constructor
        · rintro (rfl | hp)
          · exact ⟨a, rfl, .here, by omega⟩
          · obtain ⟨q, rfl, hq, hl⟩ := (hmem p).1 hp
            exact ⟨q, rfl, .next h1 hq, hl⟩
        · rintro ⟨q, rfl, hq, hl⟩
          cases hq with
          | here => exact .inl rfl
          | next h3 h4 =>
            rw [h1] at h3; cases h3
            exact .inr ((hmem _).2 ⟨q, rfl, h4, hl⟩)
    · have := h2.le
      refine ⟨1, [(a, l)], ?_, by simp, ?_⟩
      · rw [disasmAll, hd]
        simp only [Res.bind_ok]
        have : shownPc P m = -1 := by unfold shownPc; rw [if_pos (by omega)]
        rw [this, if_pos (by omega)]
      · intro p
        simp only [List.map_cons, List.map_nil, List.mem_singleton]
        constructor
        · rintro rfl
          exact ⟨a, rfl, .here, by omega⟩
        · rintro ⟨q, rfl, hq, hl⟩
          cases hq with
          | here => rfl
          | next h3 h4 =>
            rw [h1] at h3; cases h3
            have := h4.le
            omega

/-- **C19, whole programs.** Printing a compiled program by calling the disassembler again and again ends, gets to
the end, and shows exactly the instructions of the program, each once, in order – if the program has none of the
instructions the disassembler does not know. -/
theorem c19_program {us : List (Globals × Nat × List Stmt)} {c : Ctx} {env : Env} (L : BuiltFrom us c env)
    (hs : Listable env.program) :
    ∃ fuel ls, disasmAll env.program fuel 0 = .ok (ls, true) ∧ (ls.map Prod.fst).Pairwise (· < ·) ∧
      ∀ p : Int, p ∈ ls.map Prod.fst ↔ ∃ q : Nat, p = (q : Nat) ∧ Visits env.program 0 q ∧ q < env.program.length := by
  have W := L.wellLaid
  obtain ⟨q, hq, _⟩ := W.last
  exact disasmAll_spec hs W.walk .here rfl (by rw [← hq]; exact Nat.succ_pos q)

/-- **C19, a defect.** At a shift instruction the disassembler answers `false`. -/
theorem c19_defect_shift {P : List UInt8} {pc : Nat} (h : P[pc]? = some Op.shl.toByte ∨ P[pc]? = some Op.shr.toByte) :
    disasmOne P pc = .ok none := by
  unfold disasmOne
  rcases h with h | h <;>
  · have := (List.getElem?_eq_some_iff.1 h).1
    rw [if_neg (by omega), Int.toNat_natCast, readByte_eq.2 h]
    simp [Op.ofByte_toByte, disasmSwitch]

/-- **C19, a defect.** For a string constant with a long index the disassembler goes on where the code generator put
the next instruction, the interpreter at least 4 bytes later. -/
theorem c19_defect_long_string {env : Env} {t u : Thread} {l : Listing} {next : Int} (h0 : 0 ≤ t.pc)
    (hop : env.program[t.pc.toNat]? = some Op.pushString.toByte) (hd : disasmOne env.program t.pc = .ok (some (l, next)))
    (he : exec env t = .ok u) : next + 4 ≤ u.pc := by
  have hlt := (List.getElem?_eq_some_iff.1 hop).1
  unfold disasmOne at hd
  rw [if_neg (by omega), readByte_eq.2 hop] at hd
  simp only [Res.bind_ok, Op.ofByte_toByte, disasmSwitch, disasmValue] at hd
  obtain ⟨x, hx, hd⟩ := Res.bind_eq_ok.1 hd
  obtain ⟨⟨v, pc4⟩, h4, hx⟩ := Res.bind_eq_ok.1 hx
  cases hx
  simp only [Res.ok.injEq, Option.some.injEq, Prod.mk.injEq] at hd
  have e4 := readValueAt_next h4
  rw [exec_at (pc := t.pc.toNat) (by omega) hop, execOp] at he
  obtain ⟨⟨w, pc8⟩, h8, he⟩ := Res.bind_eq_ok.1 he
  have e8 := readValueAt_next h8
  dsimp only at he
  split at he
  · have := push_pc he
    rw [this, ← hd.2]
    simp only [e4, e8, alignUp]
    split <;> omega
  · cases he

end Tiny
