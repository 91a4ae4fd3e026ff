import Verif.Props.VM

/-!
# What an instruction does to the frames
-/

namespace Tiny
open Spec

/-- Same frames, same frame pointer. -/
def SameFrames (t u : Thread) : Prop := u.frames = t.frames ∧ u.fp = t.fp

theorem SameFrames.push {env : Env} {t s u : Thread} {v : Value} (h : SameFrames t s) (e : push env s v = .ok u) : SameFrames t u := by
  rw [push_ok e]; exact h

theorem SameFrames.pop {t s u : Thread} {v : Value} (h : SameFrames t s) (e : pop s = .ok (v, u)) : SameFrames t u := by
  rw [(pop_ok e).2]; exact h

/-- An instruction keeps the frames, or pushes one which remembers the frame pointer, or pops the last one,
returning to it. -/
inductive FrameStep (t u : Thread) : Prop
  | same (h : SameFrames t u)
  | push (f : Frame) (h : u.frames = t.frames ++ [f]) (hfp : f.fp = t.fp)
  | pop (f : Frame) (h : t.frames = u.frames ++ [f]) (hfp : u.fp = f.fp) (hpc : u.pc = f.pc)
      (hst : u.stack.length + f.nargs = t.fp)

theorem popIndir_frames {t s u : Thread} (h : SameFrames t s) (e : popIndir s = .ok u) : FrameStep t u := by
  unfold popIndir at e
  cases hf : s.frames.getLast? with
  | none => rw [hf] at e; cases e
  | some f =>
    rw [hf] at e
    simp only at e
    split at e
    next hc =>
      cases e
      obtain ⟨ys, hys⟩ := List.getLast?_eq_some_iff.1 hf
      refine .pop f ?_ rfl rfl ?_
      · rw [← h.1, hys]; simp
      · simp only [List.length_take]
        rw [← h.2]; omega
    · cases e

theorem exec_frames {env : Env} {t u : Thread} (e : exec env t = .ok u) : FrameStep t u := by
  unfold exec at e
  obtain ⟨b, hb, e⟩ := Res.bind_eq_ok.1 e
  cases hop : Op.ofByte b with
  | none => rw [hop] at e; cases e
  | some op =>
    rw [hop] at e
    simp only [execOp] at e
    have r : ∀ {pc : Int}, SameFrames t { t with pc := pc } := ⟨rfl, rfl⟩
    cases op <;> dsimp only at e
    case halt => cases e; exact .same r
    case misaligned => cases e
    case ret => exact popIndir_frames (s := { t with retVal := .null }) ⟨rfl, rfl⟩ e
    case retValue =>
      obtain ⟨⟨v, t1⟩, e1, e⟩ := Res.bind_eq_ok.1 e
      have := SameFrames.pop (⟨rfl, rfl⟩ : SameFrames t t) e1
      refine popIndir_frames ?_ e
      exact ⟨this.1, this.2⟩
    case goto =>
      obtain ⟨⟨v, pc'⟩, e1, e⟩ := Res.bind_eq_ok.1 e
      cases e
      exact .same r
    case gotoz =>
      obtain ⟨⟨v, pc'⟩, e1, e⟩ := Res.bind_eq_ok.1 e
      obtain ⟨⟨x, t1⟩, e2, e⟩ := Res.bind_eq_ok.1 e
      obtain ⟨c, _, e⟩ := Res.bind_eq_ok.1 e
      cases e
      have := SameFrames.pop (⟨rfl, rfl⟩ : SameFrames t t) e2
      exact .same ⟨this.1, this.2⟩
    case pushNull | pushTrue | pushFalse | push0 | push1 | getRetVal => (refine .same (SameFrames.push ?_ e); exact ⟨rfl, rfl⟩)
    case pushNullN =>
      obtain ⟨n, _, e⟩ := Res.bind_eq_ok.1 e
      split at e
      · cases e; exact .same ⟨rfl, rfl⟩
      · cases e
    case pushInt | pushFloat | pushChar =>
      obtain ⟨_, _, e⟩ := Res.bind_eq_ok.1 e
      (refine .same (SameFrames.push ?_ e); exact ⟨rfl, rfl⟩)
    case pushString | pushStringFF =>
      obtain ⟨_, _, e⟩ := Res.bind_eq_ok.1 e
      try dsimp only at e
      split at e
      · (refine .same (SameFrames.push ?_ e); exact ⟨rfl, rfl⟩)
      · cases e
    case pushStruct =>
      obtain ⟨_, _, e⟩ := Res.bind_eq_ok.1 e
      obtain ⟨_, _, e⟩ := Res.bind_eq_ok.1 e
      split at e
      · (refine .same (SameFrames.push ?_ e); exact ⟨rfl, rfl⟩)
      · cases e
    case structGet =>
      obtain ⟨_, _, e⟩ := Res.bind_eq_ok.1 e
      obtain ⟨⟨_, t1⟩, e1, e⟩ := Res.bind_eq_ok.1 e
      obtain ⟨_, _, e⟩ := Res.bind_eq_ok.1 e
      have := SameFrames.pop (⟨rfl, rfl⟩ : SameFrames t t) e1
      dsimp only at e
      split at e
      · cases e
      · (refine .same (SameFrames.push ?_ e); exact ⟨this.1, this.2⟩)
    case structSet =>
      obtain ⟨_, _, e⟩ := Res.bind_eq_ok.1 e
      obtain ⟨⟨_, t1⟩, e1, e⟩ := Res.bind_eq_ok.1 e
      obtain ⟨⟨_, t2⟩, e2, e⟩ := Res.bind_eq_ok.1 e
      obtain ⟨_, _, e⟩ := Res.bind_eq_ok.1 e
      have := SameFrames.pop (SameFrames.pop (⟨rfl, rfl⟩ : SameFrames t t) e1) e2
      dsimp only at e
      split at e
      · cases e; exact .same ⟨this.1, this.2⟩
      · cases e
    case add | sub | mul | div | mod | or | and | shl | shr | lt | lte | gt | gte | equ =>
      obtain ⟨⟨_, t1⟩, e1, e⟩ := Res.bind_eq_ok.1 e
      obtain ⟨⟨_, t2⟩, e2, e⟩ := Res.bind_eq_ok.1 e
      obtain ⟨_, _, e⟩ := Res.bind_eq_ok.1 e
      have := SameFrames.pop (SameFrames.pop (⟨rfl, rfl⟩ : SameFrames t t) e1) e2
      (refine .same (SameFrames.push ?_ e); exact ⟨this.1, this.2⟩)
    case add1 | sub1 | logNot =>
      obtain ⟨⟨_, t1⟩, e1, e⟩ := Res.bind_eq_ok.1 e
      obtain ⟨_, _, e⟩ := Res.bind_eq_ok.1 e
      have := SameFrames.pop (⟨rfl, rfl⟩ : SameFrames t t) e1
      (refine .same (SameFrames.push ?_ e); exact ⟨this.1, this.2⟩)
    case set =>
      obtain ⟨_, _, e⟩ := Res.bind_eq_ok.1 e
      obtain ⟨⟨_, t1⟩, e1, e⟩ := Res.bind_eq_ok.1 e
      have := SameFrames.pop (⟨rfl, rfl⟩ : SameFrames t t) e1
      dsimp only at e
      split at e
      · cases e; exact .same ⟨this.1, this.2⟩
      · cases e
    case get =>
      obtain ⟨_, _, e⟩ := Res.bind_eq_ok.1 e
      try dsimp only at e
      split at e
      · (refine .same (SameFrames.push ?_ e); exact ⟨rfl, rfl⟩)
      · cases e
    case call =>
      obtain ⟨n, _, e⟩ := Res.bind_eq_ok.1 e
      obtain ⟨⟨i, pc'⟩, _, e⟩ := Res.bind_eq_ok.1 e
      obtain ⟨t1, e1, e⟩ := Res.bind_eq_ok.1 e
      unfold pushIndir at e1
      dsimp only at e1 e
      split at e1
      · cases e1
        split at e
        · cases e; exact .push _ rfl rfl
        · cases e
      · cases e1
    case callf =>
      obtain ⟨n, _, e⟩ := Res.bind_eq_ok.1 e
      obtain ⟨⟨i, pc'⟩, _, e⟩ := Res.bind_eq_ok.1 e
      dsimp only at e
      split at e
      · obtain ⟨_, _, e⟩ := Res.bind_eq_ok.1 e
        cases e; exact .same ⟨rfl, rfl⟩
      · cases e
    case getLocal | getLocalW =>
      obtain ⟨_, _, e⟩ := Res.bind_eq_ok.1 e
      obtain ⟨_, _, e⟩ := Res.bind_eq_ok.1 e
      (refine .same (SameFrames.push ?_ e); exact ⟨rfl, rfl⟩)
    case setLocal =>
      obtain ⟨_, _, e⟩ := Res.bind_eq_ok.1 e
      obtain ⟨⟨_, t1⟩, e1, e⟩ := Res.bind_eq_ok.1 e
      have := SameFrames.pop (⟨rfl, rfl⟩ : SameFrames t t) e1
      dsimp only at e
      split at e
      · cases e; exact .same ⟨this.1, this.2⟩
      · cases e

/-- In a call: the frames of the caller, the frame of the call, and further frames; the frame pointer of
the call is `fp` – in the thread if there are no further frames, else in the first of them. -/
def InCall (F : List Frame) (f : Frame) (fp : Nat) (u : Thread) : Prop :=
  ∃ more, u.frames = F ++ f :: more ∧ (match more with | [] => u.fp | f1 :: _ => f1.fp) = fp

theorem InCall.step {env : Env} {F : List Frame} {f : Frame} {fp : Nat} {t u : Thread} (h : InCall F f fp t)
    (e : exec env t = .ok u) :
    InCall F f fp u ∨ (u.frames = F ∧ u.fp = f.fp ∧ u.pc = f.pc ∧ u.stack.length + f.nargs = fp) := by
  obtain ⟨more, hm, hfp⟩ := h
  cases exec_frames e with
  | same h1 =>
    refine .inl ⟨more, h1.1.trans hm, ?_⟩
    cases more with
    | nil => exact h1.2.trans hfp
    | cons => exact hfp
  | push f1 h1 h2 =>
    refine .inl ⟨more ++ [f1], by rw [h1, hm]; simp, ?_⟩
    cases more with
    | nil => exact h2.trans hfp
    | cons => exact hfp
  | pop f1 h1 h2 h3 h4 =>
    rw [hm] at h1
    cases more using List.reverseRecOn with
    | nil =>
      obtain ⟨rfl, h5⟩ := List.append_inj' h1 rfl
      cases h5
      exact .inr ⟨rfl, h2, h3, h4.trans hfp⟩
    | append_singleton more f2 =>
      have h5 : (F ++ f :: more) ++ [f2] = u.frames ++ [f1] := by rw [← h1]; simp
      obtain ⟨h6, h7⟩ := List.append_inj' h5 rfl
      cases h7
      refine .inl ⟨more, h6.symm, ?_⟩
      cases more with
      | nil => exact h2.trans hfp
      | cons => exact hfp

end Tiny
