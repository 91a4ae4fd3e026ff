import Verif.Proofs.Walk
import Verif.Proofs.Frames
import Verif.Proofs.Program

/-!
# Execution stays on instruction starts
-/

namespace Tiny
open Spec

/-- The functions of an item are entered at instruction starts. -/
theorem At.entries {g : Globals} {fp : Nat → Option Nat} {P : List UInt8} {pos fin : Nat} {it : Item}
    (h : At g fp P pos it fin) : ∀ p ∈ it.procs, ∃ q, fp p.1 = some q ∧ Visits P pos q ∧ q < fin := by
  induction h with
  | node h ih => exact fun p hp => ih p (by simpa [Item.procs, Spec.procs] using hp)
  | block h ih => exact fun p hp => ih p (by simpa [Item.procs, Spec.procs] using hp)
  | @proc pos p1 p2 p3 fin b c i nargs nlocals body a h1 h2 h3 h4 h5 h6 ih =>
    intro p hp
    have := h1.lt; have := h5.le; have := h6.lt
    have k0 : Closed P (fun _ => False) p1 p2 := by
      split at h4
      · subst h4; exact .nil
      · exact .op h4
    have := k0.walk.le
    have k1 : Visits P pos p1 := .one (h1.nextInstr rfl)
    simp only [Item.procs, Spec.procs, List.mem_cons] at hp
    rcases hp with rfl | hp
    · exact ⟨_, h2, k1, by omega⟩
    · obtain ⟨q, hq, hv, hl⟩ := ih p hp
      exact ⟨q, hq, (k1.trans k0.walk).trans hv, by omega⟩
  | ifThen h1 h2 h3 _ ih =>
    intro p hp
    obtain ⟨q, hq, hv, hl⟩ := ih p (by simpa [Item.procs, Spec.procs] using hp)
    exact ⟨q, hq, (h1.closed.walk.trans (.one (h2.nextInstr rfl))).trans hv, by omega⟩
  | ifElse h1 h2 h3 h4 h5 _ ih1 ih2 =>
    intro p hp
    have := h4.lt; have := h5.le
    have w := h1.closed.walk.trans (.one (h2.nextInstr rfl))
    simp only [Item.procs, Spec.procs, List.mem_append] at hp
    rcases hp with hp | hp
    · obtain ⟨q, hq, hv, hl⟩ := ih1 p hp
      exact ⟨q, hq, w.trans hv, by omega⟩
    · obtain ⟨q, hq, hv, hl⟩ := ih2 p hp
      exact ⟨q, hq, ((w.trans h3.closed.walk).trans (.one (h4.nextInstr rfl))).trans hv, by omega⟩
  | «while» h1 h2 h3 h4 _ ih =>
    intro p hp
    have := h4.lt
    obtain ⟨q, hq, hv, hl⟩ := ih p (by simpa [Item.procs, Spec.procs] using hp)
    exact ⟨q, hq, (h1.closed.walk.trans (.one (h2.nextInstr rfl))).trans hv, by omega⟩
  | «for» h0 h1 h2 h3 h4 h5 ih0 _ ih3 ih4 =>
    intro p hp
    have := h0.le; have := h1.le; have := h2.lt; have := h3.le; have := h4.le; have := h5.lt
    have w := h0.closed.walk.trans (h1.closed.walk.trans (.one (h2.nextInstr rfl)))
    simp only [Item.procs, Spec.procs, List.mem_append] at hp
    rcases hp with (hp | hp) | hp
    · obtain ⟨q, hq, hv, hl⟩ := ih0 p hp
      exact ⟨q, hq, hv, by omega⟩
    · obtain ⟨q, hq, hv, hl⟩ := ih3 p hp
      exact ⟨q, hq, w.trans hv, by omega⟩
    · obtain ⟨q, hq, hv, hl⟩ := ih4 p hp
      exact ⟨q, hq, (w.trans h3.closed.walk).trans hv, by omega⟩
  | ssCons h1 h2 ih1 ih2 =>
    intro p hp
    have := h1.le; have := h2.le
    simp only [Item.procs, Spec.procsL, List.mem_append] at hp
    rcases hp with hp | hp
    · obtain ⟨q, hq, hv, hl⟩ := ih1 p hp
      exact ⟨q, hq, hv, by omega⟩
    · obtain ⟨q, hq, hv, hl⟩ := ih2 p hp
      exact ⟨q, hq, h1.closed.walk.trans hv, by omega⟩
  | _ => intro p hp; simp [Item.procs, Spec.procs, Spec.procsL] at hp

/-- Where execution goes on after the instruction `op` at `pc`, and what becomes of the frames. -/
inductive PcStep (env : Env) (t : Thread) (pc : Nat) (op : Op) (u : Thread) : Prop
  | seq (hpc : u.pc = (instrEnd op pc : Nat)) (hf : u.frames = t.frames) (ho : op ≠ .halt) (ho' : op ≠ .goto)
  | jump (d : Nat) (ho : op = .goto ∨ op = .gotoz) (hj : jumpTarget env.program pc = some d) (hpc : u.pc = toPc d)
      (hf : u.frames = t.frames)
  | call (f : Frame) (i q : Nat) (ho : op = .call) (hfpc : f.pc = (instrEnd op pc : Nat)) (hf : u.frames = t.frames ++ [f])
      (hi : env.functionPcs[i]? = some q) (hpc : u.pc = (q : Nat))
  | ret (f : Frame) (ho : op = .ret ∨ op = .retValue) (hf : t.frames = u.frames ++ [f]) (hpc : u.pc = f.pc)
  | halt (ho : op = .halt) (hpc : u.pc = -1) (hf : u.frames = t.frames)

theorem popIndir_pc {env : Env} {t s u : Thread} {pc : Nat} {op : Op} (ho : op = .ret ∨ op = .retValue)
    (h : s.frames = t.frames) (e : popIndir s = .ok u) : PcStep env t pc op u := by
  unfold popIndir at e
  cases hf : s.frames.getLast? with
  | none => rw [hf] at e; cases e
  | some f =>
    rw [hf] at e
    simp only at e
    split at e
    next hc =>
      cases e
      obtain ⟨ys, hys⟩ := List.getLast?_eq_some_iff.1 hf
      refine .ret f ho ?_ rfl
      rw [← h, hys]; simp
    · cases e

theorem PcStep.of_push {env : Env} {t s u : Thread} {pc : Nat} {op : Op} {v : Value} (e : Tiny.push env s v = .ok u)
    (hpc : s.pc = (instrEnd op pc : Nat)) (hf : s.frames = t.frames) (ho : op ≠ .halt) (ho' : op ≠ .goto) :
    PcStep env t pc op u := by
  rw [push_ok e]; exact .seq hpc hf ho ho'

theorem pop_frames {s u : Thread} {v : Value} (e : Tiny.pop s = .ok (v, u)) : u.frames = s.frames := by
  rw [(pop_ok e).2]

theorem readValueAt_end {P : List UInt8} {pc n v next : Nat} (h0 : 0 < n) (h : readValueAt P pc n = .ok (v, next)) :
    next = alignedFrom pc n + n := by
  rw [alignedFrom_eq _ _ h0]; exact readValueAt_next h

theorem readValueAt_num {P : List UInt8} {pc n v next : Nat} (h0 : 0 < n) (h : readValueAt P pc n = .ok (v, next)) :
    numberAt P (alignedFrom pc n) n = some v := by
  unfold readValueAt at h
  obtain ⟨w, hw, h⟩ := Res.bind_eq_ok.1 h
  cases h
  rw [alignedFrom_eq _ _ h0]; exact readLE_eq.1 hw

theorem exec_pc {env : Env} {t u : Thread} {op : Op} (h0 : 0 ≤ t.pc) (hop : env.program[t.pc.toNat]? = some op.toByte)
    (hs : op ≠ .pushString) (e : exec env t = .ok u) : PcStep env t t.pc.toNat op u := by
  unfold exec at e
  obtain ⟨b, hb, e⟩ := Res.bind_eq_ok.1 e
  rw [readByte_eq, hop] at hb
  cases hb
  rw [Op.ofByte_toByte] at e
  simp only [execOp] at e
  generalize t.pc.toNat = pc at *
  cases op <;> dsimp only at e
  case halt => cases e; exact .halt rfl rfl rfl
  case misaligned => cases e
  case ret => exact popIndir_pc (.inl rfl) (s := { t with retVal := .null }) rfl e
  case retValue =>
    obtain ⟨⟨v, t1⟩, e1, e⟩ := Res.bind_eq_ok.1 e
    refine popIndir_pc (.inr rfl) ?_ e
    have := pop_frames e1
    exact this
  case goto =>
    obtain ⟨⟨v, pc'⟩, e1, e⟩ := Res.bind_eq_ok.1 e
    cases e
    refine .jump v (.inl rfl) ?_ rfl rfl
    unfold jumpTarget
    rw [hop]
    simp only [Option.bind_some, Op.ofByte_toByte]
    exact readValueAt_num (by omega) e1
  case gotoz =>
    obtain ⟨⟨v, pc'⟩, e1, e⟩ := Res.bind_eq_ok.1 e
    obtain ⟨⟨x, t1⟩, e2, e⟩ := Res.bind_eq_ok.1 e
    obtain ⟨c, _, e⟩ := Res.bind_eq_ok.1 e
    cases e
    cases c with
    | true =>
      refine   .seq ?_ (by have := pop_frames e2; exact this) (by simp) (by simp)
      simp only [if_true, instrEnd, operands]
      rw [readValueAt_end (by omega) e1]
    | false =>
      refine .jump v (.inr rfl) ?_ rfl (by have := pop_frames e2; exact this)
      unfold jumpTarget
      rw [hop]
      simp only [Option.bind_some, Op.ofByte_toByte]
      exact readValueAt_num (by omega) e1
  case pushString => exact absurd rfl hs
  case pushNull | pushTrue | pushFalse | push0 | push1 | getRetVal => exact .of_push e rfl rfl (by simp) (by simp)
  case pushNullN =>
    obtain ⟨n, _, e⟩ := Res.bind_eq_ok.1 e
    split at e
    · cases e; exact .seq rfl rfl (by simp) (by simp)
    · cases e
  case pushChar =>
    obtain ⟨_, _, e⟩ := Res.bind_eq_ok.1 e
    exact .of_push e rfl rfl (by simp) (by simp)
  case pushInt | pushFloat =>
    obtain ⟨⟨v, pc'⟩, e1, e⟩ := Res.bind_eq_ok.1 e
    refine .of_push e ?_ rfl (by simp) (by simp)
    simp only [instrEnd, operands]
    rw [readValueAt_end (by omega) e1]
  case pushStringFF =>
    obtain ⟨_, _, e⟩ := Res.bind_eq_ok.1 e
    try dsimp only at e
    split at e
    · exact .of_push e rfl rfl (by simp) (by simp)
    · cases e
  case pushStruct =>
    obtain ⟨_, _, e⟩ := Res.bind_eq_ok.1 e
    obtain ⟨_, _, e⟩ := Res.bind_eq_ok.1 e
    split at e
    · exact .of_push e rfl rfl (by simp) (by simp)
    · cases e
  case structGet =>
    obtain ⟨_, _, e⟩ := Res.bind_eq_ok.1 e
    obtain ⟨⟨_, t1⟩, e1, e⟩ := Res.bind_eq_ok.1 e
    obtain ⟨_, _, e⟩ := Res.bind_eq_ok.1 e
    have := pop_frames e1
    dsimp only at e
    split at e
    · cases e
    · exact .of_push e rfl this (by simp) (by simp)
  case structSet =>
    obtain ⟨_, _, e⟩ := Res.bind_eq_ok.1 e
    obtain ⟨⟨_, t1⟩, e1, e⟩ := Res.bind_eq_ok.1 e
    obtain ⟨⟨_, t2⟩, e2, e⟩ := Res.bind_eq_ok.1 e
    obtain ⟨_, _, e⟩ := Res.bind_eq_ok.1 e
    have := (pop_frames e2).trans (pop_frames e1)
    dsimp only at e
    split at e
    · cases e; exact .seq rfl this (by simp) (by simp)
    · cases e
  case add | sub | mul | div | mod | or | and | shl | shr | lt | lte | gt | gte | equ =>
    obtain ⟨⟨_, t1⟩, e1, e⟩ := Res.bind_eq_ok.1 e
    obtain ⟨⟨_, t2⟩, e2, e⟩ := Res.bind_eq_ok.1 e
    obtain ⟨_, _, e⟩ := Res.bind_eq_ok.1 e
    exact .of_push e rfl (by have := (pop_frames e2).trans (pop_frames e1); exact this) (by simp) (by simp)
  case add1 | sub1 | logNot =>
    obtain ⟨⟨_, t1⟩, e1, e⟩ := Res.bind_eq_ok.1 e
    obtain ⟨_, _, e⟩ := Res.bind_eq_ok.1 e
    exact .of_push e rfl (by have := pop_frames e1; exact this) (by simp) (by simp)
  case set =>
    obtain ⟨⟨v, pc'⟩, e0, e⟩ := Res.bind_eq_ok.1 e
    obtain ⟨⟨_, t1⟩, e1, e⟩ := Res.bind_eq_ok.1 e
    have := pop_frames e1
    dsimp only at e
    split at e
    · cases e
      refine .seq ?_ this (by simp) (by simp)
      simp only [instrEnd, operands]
      rw [readValueAt_end (by omega) e0]
    · cases e
  case get =>
    obtain ⟨⟨v, pc'⟩, e0, e⟩ := Res.bind_eq_ok.1 e
    try dsimp only at e
    split at e
    · refine .of_push e ?_ rfl (by simp) (by simp)
      simp only [instrEnd, operands]
      rw [readValueAt_end (by omega) e0]
    · cases e
  case call =>
    obtain ⟨n, _, e⟩ := Res.bind_eq_ok.1 e
    obtain ⟨⟨i, pc'⟩, e0, e⟩ := Res.bind_eq_ok.1 e
    obtain ⟨t1, e1, e⟩ := Res.bind_eq_ok.1 e
    unfold pushIndir at e1
    dsimp only at e1 e
    split at e1
    · cases e1
      split at e
      next q hq =>
        cases e
        refine .call _ i q rfl ?_ rfl hq rfl
        simp only [instrEnd, operands]
        rw [readValueAt_end (by omega) e0]
      · cases e
    · cases e1
  case callf =>
    obtain ⟨n, _, e⟩ := Res.bind_eq_ok.1 e
    obtain ⟨⟨i, pc'⟩, e0, e⟩ := Res.bind_eq_ok.1 e
    dsimp only at e
    split at e
    · obtain ⟨_, _, e⟩ := Res.bind_eq_ok.1 e
      cases e
      refine .seq ?_ rfl (by simp) (by simp)
      simp only [instrEnd, operands]
      rw [readValueAt_end (by omega) e0]
    · cases e
  case getLocal =>
    obtain ⟨⟨i, pc'⟩, e0, e⟩ := Res.bind_eq_ok.1 e
    obtain ⟨_, _, e⟩ := Res.bind_eq_ok.1 e
    refine .of_push e ?_ rfl (by simp) (by simp)
    simp only [instrEnd, operands]
    rw [readValueAt_end (by omega) e0]
  case getLocalW =>
    obtain ⟨_, _, e⟩ := Res.bind_eq_ok.1 e
    obtain ⟨_, _, e⟩ := Res.bind_eq_ok.1 e
    exact .of_push e rfl rfl (by simp) (by simp)
  case setLocal =>
    obtain ⟨⟨i, pc'⟩, e0, e⟩ := Res.bind_eq_ok.1 e
    obtain ⟨⟨_, t1⟩, e1, e⟩ := Res.bind_eq_ok.1 e
    have := pop_frames e1
    dsimp only at e
    split at e
    · cases e
      refine .seq ?_ this (by simp) (by simp)
      simp only [instrEnd, operands]
      rw [readValueAt_end (by omega) e0]
    · cases e

end Tiny
