import Verif.Spec.File
import Verif.Proofs.StdString

/-! # Streams -/

namespace Tiny
open Spec Std

theorem written_nil (c : List UInt8) (p : Nat) : written c p [] = c := by simp [written]

theorem overwrite_written {c : List UInt8} {p : Nat} {x : List UInt8} (hx : x ≠ []) : overwrite c p x = written c p x := by
  have e : (c ++ List.replicate (p - c.length) (0 : UInt8)).take p = c.take p ++ List.replicate (p - c.length) 0 := by
    rw [List.take_append, List.take_replicate]
    congr 2
    omega
  rw [overwrite, written, if_neg hx, e]

theorem pad_length (c : List UInt8) (p : Nat) : ((c ++ List.replicate (p - c.length) (0 : UInt8)).take p).length = p := by
  simp; omega

theorem written_length {c : List UInt8} {p : Nat} {x : List UInt8} (hx : x ≠ []) :
    (written c p x).length = max c.length (p + x.length) := by
  rw [written, if_neg hx, List.length_append, List.length_append, pad_length, List.length_drop]
  omega

theorem written_append (c : List UInt8) (p : Nat) (x y : List UInt8) :
    written (written c p x) (p + x.length) y = written c p (x ++ y) := by
  by_cases hx : x = []
  · subst hx; simp [written_nil]
  by_cases hy : y = []
  · subst hy; simp [written_nil]
  have hl := written_length (c := c) (p := p) hx
  rw [written, if_neg hy, hl]
  have e0 : p + x.length - max c.length (p + x.length) = 0 := by omega
  rw [e0, List.replicate_zero, List.append_nil, written, if_neg hx]
  rw [written, if_neg (by simp [hx])]
  have hp := pad_length c p
  generalize (c ++ List.replicate (p - c.length) (0 : UInt8)).take p = A at hp
  have hA : (A ++ x).length = p + x.length := by simp [hp]
  rw [List.take_append_of_le_length (by omega), List.take_of_length_le (by omega)]
  rw [List.drop_append, List.drop_of_length_le (by omega)]
  simp only [hA, List.nil_append, List.drop_drop, List.append_assoc, List.length_append]
  congr 4
  omega

/-- Nothing a program sees depends on how much of what waits is written early. -/
theorem flush_spec (d : Disk) (s : Stream) (k : Nat) {d' : Disk} {s' : Stream} (e : d.flush s k = (d', s')) :
    content d' s' = content d s ∧ position d' s' = position d s ∧ s'.file = s.file ∧ s'.mode = s.mode ∧ s'.last = s.last ∧
      s'.pending = s.pending.drop k ∧ d'.streams = d.streams ∧ (∀ m, m ≠ s.file → d'.files m = d.files m) ∧
      (d.files s.file ≠ none → d'.files s.file ≠ none) := by
  rw [Disk.flush] at e
  by_cases hx : s.pending.take k = []
  · simp only [hx, if_true, Prod.mk.injEq] at e
    obtain ⟨rfl, rfl⟩ := e
    refine ⟨rfl, rfl, rfl, rfl, rfl, ?_, rfl, fun _ _ => rfl, id⟩
    rcases List.take_eq_nil_iff.1 hx with h | h
    · subst h; rfl
    · rw [h, List.drop_nil]
  · simp only [hx, if_false, Prod.mk.injEq] at e
    obtain ⟨rfl, rfl⟩ := e
    have hw : (if s.mode.kind = .append then (d.bytesOf s).length else s.pos) = waitAt d s := rfl
    have ho : d.bytesOf s = onDisk d s := rfl
    rw [hw, ho, overwrite_written hx]
    have hdisk : onDisk (d.setFile s.file (written (onDisk d s) (waitAt d s) (s.pending.take k)))
        { s with pos := waitAt d s + (s.pending.take k).length, pending := s.pending.drop k } =
        written (onDisk d s) (waitAt d s) (s.pending.take k) := by simp [onDisk, Disk.setFile]
    have hwait : waitAt (d.setFile s.file (written (onDisk d s) (waitAt d s) (s.pending.take k)))
        { s with pos := waitAt d s + (s.pending.take k).length, pending := s.pending.drop k } =
        waitAt d s + (s.pending.take k).length := by
      rw [waitAt, hdisk]
      by_cases hm : s.mode.kind = .append
      · rw [if_pos hm, written_length hx]
        rw [waitAt, if_pos hm]; omega
      · rw [if_neg hm]
    refine ⟨?_, ?_, rfl, rfl, rfl, rfl, rfl, ?_, ?_⟩
    · rw [content, hdisk, hwait, content]
      show written _ _ (s.pending.drop k) = _
      rw [written_append, List.take_append_drop]
    · rw [position, hwait, position]
      have hne : s.pending ≠ [] := by rintro h; rw [h] at hx; simp at hx
      rw [if_neg hne]
      have hl := congrArg List.length (List.take_append_drop k s.pending)
      rw [List.length_append] at hl
      show (if s.pending.drop k = [] then _ else _ + (s.pending.drop k).length) = _
      split
      · rename_i h; rw [h, List.length_nil] at hl
        show waitAt d s + (s.pending.take k).length = _
        omega
      · omega
    · intro m hm; simp [Disk.setFile, hm]
    · intro _; simp [Disk.setFile]

theorem flush_all (d : Disk) (s : Stream) {d' : Disk} {s' : Stream} (e : d.flush s s.pending.length = (d', s')) :
    onDisk d' s' = content d s ∧ s'.pos = position d s ∧ s'.pending = [] ∧ s'.file = s.file ∧ s'.mode = s.mode ∧
      d'.streams = d.streams ∧ (∀ m, m ≠ s.file → d'.files m = d.files m) ∧
      (d.files s.file ≠ none → d'.files s.file ≠ none) := by
  obtain ⟨h1, h2, h3, h4, _, h5, h6, h7, h8⟩ := flush_spec d s _ e
  rw [List.drop_length] at h5
  rw [content, h5, written_nil] at h1
  rw [position, if_pos h5] at h2
  exact ⟨h1, h2, h5, h3, h4, h6, h7, h8⟩

theorem stream_of {d : Disk} {a : Nat} {s : Stream} (h : d.streams a = some s) : d.stream a = .ok s := by
  rw [Disk.stream, h]

theorem fileAt_of {h : Heap} {v : Value} {a : Nat} (hv : HandleAt h v a) : fileAt h v = .ok a := by
  obtain ⟨o, p, rfl, h1, h2, h3⟩ := hv
  simp [fileAt, toAddr, Heap.deref, h1, h2, Nat.mod_eq_of_lt h3]

theorem handle_ext {h h' : Heap} {v : Value} {a : Nat} (hx : Extends h h') (hv : HandleAt h v a) : HandleAt h' v a := by
  obtain ⟨o, p, rfl, h1, h2, h3⟩ := hv
  exact ⟨o, p, rfl, hx.live _ h1, by rw [hx.same _ h1]; exact h2, h3⟩

theorem toCStr_of {L : FileEnv} {h : Heap} {v : Value} {b : List UInt8} (hv : IsStr L.cmem h v b) : toCStr L h v = .ok (b ++ [0]) := by
  rw [toCStr, toStr_of hv]; rfl

theorem cText_nul (b : List UInt8) : cText (b ++ [0]) = b.takeWhile (· ≠ 0) := by
  rw [cText]
  induction b with
  | nil => rfl
  | cons c r ih =>
    rw [List.cons_append, List.takeWhile_cons, List.takeWhile_cons, ih]

/-! ## The C functions -/

theorem same_set {d d1 : Disk} {a : Nat} {s s2 : Stream} (h1 : d1.streams = d.streams) (h2 : ∀ m, m ≠ s.file → d1.files m = d.files m)
    (h3 : s2.file = s.file) (h4 : s2.mode = s.mode) (h5 : d.files s.file ≠ none → d1.files s.file ≠ none) : SameStream a d s (d1.setStream a (some s2)) s2 :=
  ⟨by simp [Disk.setStream], h3, h4, h5, ⟨h2, fun b hb => by simp [Disk.setStream, hb, h1]⟩⟩

/-- Where `fseek` goes. -/
def seekTo (c : List UInt8) (fromEnd : Bool) (off : Int) : Int := (if fromEnd then (c.length : Int) else 0) + off

theorem fseek_of {d : Disk} {a : Nat} {s : Stream} (hs : d.streams a = some s) (fromEnd : Bool) (off : Int) :
    ∃ d' s', fseek d a fromEnd off = .ok d' ∧ SameStream a d s d' s' ∧ content d' s' = content d s ∧ s'.pending = [] ∧
      s'.last = .nothing ∧
      position d' s' = (if seekTo (content d s) fromEnd off < 0 then position d s else (seekTo (content d s) fromEnd off).toNat) := by
  rw [fseek, stream_of hs, Res.bind_ok]
  cases hf : d.flush s s.pending.length with
  | mk d1 s1 =>
    obtain ⟨h1, h2, h3, h4, h5, h6, h7, h8⟩ := flush_all d s hf
    obtain ⟨s2, hs2⟩ : ∃ s2 : Stream, s2 = { s1 with
      pos := if seekTo (d1.bytesOf s1) fromEnd off < 0 then s1.pos else (seekTo (d1.bytesOf s1) fromEnd off).toNat, last := .nothing } := ⟨_, rfl⟩
    have e : d1.bytesOf s1 = content d s := h1
    rw [e, h2] at hs2
    refine ⟨d1.setStream a (some s2), s2, ?_, same_set h6 h7 (by rw [hs2]; exact h4) (by rw [hs2]; exact h5) h8, ?_, by rw [hs2]; exact h3,
      by rw [hs2], ?_⟩
    · show Res.ok (d1.setStream a (some { s1 with pos := if seekTo (d1.bytesOf s1) fromEnd off < 0 then s1.pos else (seekTo (d1.bytesOf s1) fromEnd off).toNat, last := .nothing })) = _
      rw [hs2, e, h2]
    · have hp : s2.pending = [] := by rw [hs2]; exact h3
      rw [content, hp, written_nil]
      rw [show onDisk (d1.setStream a (some s2)) s2 = onDisk d1 s1 from by rw [hs2]; rfl]
      exact h1
    · have hp : s2.pending = [] := by rw [hs2]; exact h3
      rw [position, if_pos hp, hs2]

theorem ftell_of {d : Disk} {a : Nat} {s : Stream} (hs : d.streams a = some s) (hp : s.pending = []) :
    ftell d a = .ok (position d s) := by
  rw [ftell, stream_of hs, Res.bind_ok, position, if_pos hp, hp]; rfl

theorem fread_of {d : Disk} {a : Nat} {s : Stream} (hs : d.streams a = some s) (hr : s.mode.kind = .read ∨ s.mode.both = true)
    (hp : s.pending = []) (hw : s.last ≠ .writing) (n : Nat) :
    ∃ d' s', fread d a n = .ok (((content d s).drop (position d s)).take n, d') ∧ SameStream a d s d' s' ∧ content d' s' = content d s ∧
      s'.pending = [] ∧ s'.last = .reading ∧
      position d' s' = position d s + (((content d s).drop (position d s)).take n).length ∧ d'.files = d.files := by
  rw [fread, stream_of hs, Res.bind_ok, if_neg (by rcases hr with h | h <;> simp [h]), if_neg hw]
  have hc : d.bytesOf s = content d s := by rw [content, hp, written_nil]; rfl
  have hpos : position d s = s.pos := by rw [position, if_pos hp]
  rw [hpos, ← hc]
  obtain ⟨s2, hs2⟩ : ∃ s2 : Stream, s2 = { s with pos := s.pos + (((d.bytesOf s).drop s.pos).take n).length, last := .reading } := ⟨_, rfl⟩
  have hp2 : s2.pending = [] := by rw [hs2]; exact hp
  refine ⟨d.setStream a (some s2), s2, by rw [hs2], same_set rfl (fun _ _ => rfl) (by rw [hs2]) (by rw [hs2]) id, ?_, hp2, by rw [hs2], ?_, rfl⟩
  · rw [content, hp2, written_nil, hs2]; rfl
  · rw [position, if_pos hp2, hs2]

theorem fwrite_of {L : FileEnv} {d : Disk} {a : Nat} {s : Stream} (hs : d.streams a = some s)
    (hr : s.mode.kind ≠ .read ∨ s.mode.both = true) (hw : s.last ≠ .reading) (x : List UInt8) :
    ∃ d' s', fwrite L d a x = .ok (x.length, d') ∧ SameStream a d s d' s' ∧
      content d' s' = written (content d s) (writesAt d s) x ∧
      s'.last = .writing ∧
      position d' s' = (if x = [] then position d s else writesAt d s + x.length) := by
  rw [fwrite, stream_of hs, Res.bind_ok, if_neg (by rcases hr with h | h <;> simp [h]), if_neg hw]
  obtain ⟨s1, hs1⟩ : ∃ s1 : Stream, s1 = { s with pending := s.pending ++ x, last := .writing } := ⟨_, rfl⟩
  rw [← hs1]
  show ∃ d' s', (match d.flush s1 (L.early s1.pending) with | (d, s) => Res.ok (x.length, d.setStream a (some s))) = _ ∧ _
  cases hf : d.flush s1 (L.early s1.pending) with
  | mk d2 s2 =>
    obtain ⟨h1, h2, h3, h4, h5, h6, h7, h8, h9⟩ := flush_spec d s1 _ hf
    have hfile : s1.file = s.file := by rw [hs1]
    have hmode : s1.mode = s.mode := by rw [hs1]
    have hwait : waitAt d s1 = waitAt d s := by rw [hs1]; rfl
    have hdisk : onDisk d s1 = onDisk d s := by rw [hs1]; rfl
    have hpend : s1.pending = s.pending ++ x := by rw [hs1]
    have hend : s.pending = [] → writesAt d s = waitAt d s := by
      intro h
      rw [writesAt, content, position, h, written_nil, if_pos rfl]; rfl
    have hend2 : s.pending ≠ [] → writesAt d s = waitAt d s + s.pending.length := by
      intro h
      rw [writesAt, content, position, if_neg h, written_length h]
      split
      · rename_i hm
        rw [waitAt, if_pos hm]; omega
      · rfl
    refine ⟨_, s2, rfl, same_set h7 (hfile ▸ h8) (h3.trans hfile) (h4.trans hmode) (hfile ▸ h9), ?_, by rw [h5, hs1], ?_⟩
    · rw [show content (d2.setStream a (some s2)) s2 = content d2 s2 from rfl, h1, content, hwait, hdisk, hpend, ← written_append]
      show written (content d s) _ x = _
      by_cases hp : s.pending = []
      · rw [hend hp, hp]; rfl
      · rw [hend2 hp]
    · rw [show position (d2.setStream a (some s2)) s2 = position d2 s2 from rfl, h2, position, hwait, hpend]
      by_cases hp : s.pending = []
      · rw [hend hp, hp, List.nil_append]
        split
        · rename_i hx
          rw [position, if_pos hp, hs1]
        · rfl
      · rw [hend2 hp, if_neg (by simp [hp])]
        split
        · rename_i hx
          rw [position, if_neg hp, hx, List.append_nil]
        · rw [List.length_append]; omega

theorem fclose_of {d : Disk} {a : Nat} {s : Stream} (hs : d.streams a = some s) (hf : d.files s.file ≠ none) :
    ∃ d', fclose d a = .ok d' ∧ d'.files s.file = some (content d s) ∧ d'.streams a = none ∧ OnlyTouches a s.file d d' := by
  rw [fclose, stream_of hs, Res.bind_ok]
  show ∃ d', (match d.flush s s.pending.length with | (d, _) => Res.ok (d.setStream a none)) = _ ∧ _
  cases h : d.flush s s.pending.length with
  | mk d1 s1 =>
    obtain ⟨h1, _, _, h4, _, h6, h7, h8⟩ := flush_all d s h
    refine ⟨_, rfl, ?_, by simp [Disk.setStream], h7, fun b hb => by simp [Disk.setStream, hb, h6]⟩
    rw [onDisk, h4] at h1
    have := h8 hf
    show d1.files s.file = _
    cases hc : d1.files s.file with
    | none => exact absurd hc this
    | some c => rw [hc] at h1; rw [← h1]; rfl

/-- A mode, in words: opened for reading, writing from the start, or appending. -/
theorem fopen_of {L : FileEnv} (hL : NewStreams L) {d : Disk} {n m : List UInt8} {mode : OpenMode} (hm : openModes.lookup m = some mode) :
    (fopen L d n m = .ok (none, d) ∧ (mode.kind = .read ∧ d.files n = none ∨ L.openAt d n mode = none)) ∨
    ∃ a d' s', fopen L d n m = .ok (some a, d') ∧ L.openAt d n mode = some a ∧ d.streams a = none ∧ 0 < a ∧ a < 2 ^ 64 ∧ d'.streams a = some s' ∧
      s'.file = n ∧ s'.mode = mode ∧ s'.pending = [] ∧ s'.last = .nothing ∧ position d' s' = 0 ∧ d'.files n = some (content d' s') ∧
      content d' s' = (if mode.kind = .write then [] else (d.files n).getD []) ∧ (mode.kind = .read → d.files n ≠ none ∧ d'.files = d.files) ∧
      OnlyTouches a n d d' := by
  have key : fopen L d n m = if mode.kind = .read ∧ d.files n = none then .ok (none, d)
      else match L.openAt d n mode with
        | none => .ok (none, d)
        | some a => .ok (some a, (d.setFile n (if mode.kind = .write then [] else (d.files n).getD [])).setStream a (some { file := n, mode := mode })) := by
    rw [fopen, hm]
    rfl
  rw [key]
  by_cases h1 : mode.kind = .read ∧ d.files n = none
  · exact .inl ⟨by rw [if_pos h1], .inl h1⟩
  rw [if_neg h1]
  cases h2 : L.openAt d n mode with
  | none => exact .inl ⟨rfl, .inr rfl⟩
  | some a =>
    obtain ⟨ha, h0, h64⟩ := hL d n mode a h2
    refine .inr ⟨a, _, { file := n, mode := mode }, rfl, rfl, ha, h0, h64, by simp [Disk.setStream], rfl, rfl, rfl, rfl, rfl, ?_, ?_, ?_, ?_⟩
    · simp [content, written_nil, onDisk, Disk.setStream, Disk.setFile]
    · simp [content, written_nil, onDisk, Disk.setStream, Disk.setFile]
    · intro hk
      have hn : d.files n ≠ none := fun h => h1 ⟨hk, h⟩
      refine ⟨hn, ?_⟩
      funext x
      simp only [Disk.setStream, Disk.setFile]
      split
      · rename_i hx
        cases hc : d.files n with
        | none => exact absurd hc hn
        | some c => rw [hx, hc, if_neg (by rw [hk]; decide)]; rfl
      · rfl
    · exact ⟨fun x hx => by simp [Disk.setStream, Disk.setFile, hx], fun b hb => by simp [Disk.setStream, Disk.setFile, hb]⟩

end Tiny
