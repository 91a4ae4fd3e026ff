import Verif.Props.File
import Verif.Proofs.Symbols

/-!
# C60, C61: `Tiny_CompileFile`, defects, examples
-/

namespace Tiny
open Spec Tiny.Std

theorem act_libc {σ α β : Type} {x : Res α} {a : α} (h : x = .ok a) (f : α → Act σ β) (s : σ) : (Act.libc x >>= f) s = f a s := by
  subst h; rfl

/-- **C61.** `Tiny_CompileFile` of a file which does not exist or cannot be opened gives an error; the state is as before, and so is
every file. -/
theorem c61_missing {L : FileEnv} (E : CompileEnv) {d : Disk} {n : List UInt8} (s : TState)
    (h : d.files n = none ∨ L.openAt d n ⟨.read, false⟩ = none) : compileFile L E n d s = .ok (false, d) s := by
  have e : fopen L d n (nameOf "rb") = .ok (none, d) := by
    rw [fopen, reads_rb]
    show (if OpenKind.read = .read ∧ d.files n = none then Res.ok (none, d) else
      match L.openAt d n ⟨.read, false⟩ with | none => .ok (none, d) | some _ => _) = _
    by_cases h1 : d.files n = none
    · rw [if_pos ⟨rfl, h1⟩]
    · rw [if_neg (fun h2 => h1 h2.2), h.resolve_left h1]
  rw [compileFile, act_libc e]
  rfl

/-- **C61.** Otherwise it does exactly what `Tiny_CompileString` does with the text of the file up to the first NUL, and the name of the
file as the file name; no file and no stream has changed. -/
theorem c61_file {L : FileEnv} (hL : NewStreams L) (E : CompileEnv) {d : Disk} {n c : List UInt8} {a : Nat} (s : TState)
    (hc : d.files n = some c) (ho : L.openAt d n ⟨.read, false⟩ = some a) :
    compileFile L E n d s = match compileString E (some n) (cut c) s with
      | .ok r s => .ok (r, d) s
      | .err s => .err s
      | .abort => .abort
      | .ub => .ub
      | .timeout => .timeout := by
  rcases open_slurp hL (d := d) n with ⟨_, hw⟩ | ⟨b, d', c', r, e1, e2, e3⟩
  · rcases hw with h | h
    · rw [hc] at h; cases h
    · rw [ho] at h; cases h
  · rw [hc] at e2; cases e2
    have e4 := bufBytes_map c r
    rw [compileFile, act_libc e1]
    show ((Act.libc (slurp d' b) >>= _ : Act TState _) s) = _
    rw [act_libc e3]
    show ((Act.libc (bufBytes c.length (c.map some ++ r)) >>= _ : Act TState _) s) = _
    rw [act_libc e4]
    show (compileString E (some n) (cut c) >>= fun r => pure (r, d) : Act TState _) s = _
    rw [act_bind]
    cases compileString E (some n) (cut c) s <;> rfl

/-- **C61.** A program which writes a source text to a file (`write_file`), and the host which then compiles that file: as if the host
had compiled the text, unless the file cannot be opened. -/
theorem c61_written {L : FileEnv} (hL : NewStreams L) (E : CompileEnv) {d d' : Disk} {h h' : Heap} {nv sv : Value} {n x : List UInt8}
    (hn : IsStr L.cmem h nv n) (hx : IsStr L.cmem h sv x) (h0 : 0 ∉ x)
    (hw : fileCall L .writeFile [nv, sv] d h = .ok (.bool true, d', h')) (s : TState) :
    compileFile L E (cut n) d' s = .ok (false, d') s ∧ L.openAt d' (cut n) ⟨.read, false⟩ = none ∨
    compileFile L E (cut n) d' s = match compileString E (some (cut n)) x s with
      | .ok r s => .ok (r, d') s
      | .err s => .err s
      | .abort => .abort
      | .ub => .ub
      | .timeout => .timeout := by
  have hf : d'.files (cut n) = some x := by
    rcases c60_write_file hL (d := d) hn hx with ⟨e, _⟩ | ⟨d1, e, e1, _⟩
    · rw [hw] at e; simp at e
    · rw [hw] at e
      simp only [Res.ok.injEq, Prod.mk.injEq, true_and] at e
      rw [e.1, e1, cut_self h0]
  cases ho : L.openAt d' (cut n) ⟨.read, false⟩ with
  | none => exact .inl ⟨c61_missing E s (.inr ho), rfl⟩
  | some a =>
    right
    rw [c61_file hL E s hf ho, cut_self h0]

theorem cut_no_nul (x : List UInt8) : 0 ∉ cut x := by
  induction x with
  | nil => simp [cut]
  | cons c r ih =>
    rw [cut, List.takeWhile_cons]
    split
    · rename_i hc
      intro h
      rcases List.mem_cons.1 h with h | h
      · simp [← h] at hc
      · exact ih h
    · simp

/-! ## What the code does not guard against -/

/-- **C60.** `read_file` is declared to give a `str`, but of a file which does not exist it gives null, and then even `strlen` of the
result is undefined; `fopen` is declared to give a `file` and gives null too, which no function accepts (`c60_closed`). -/
theorem c60_defect_missing {L : FileEnv} (hL : NewStreams L) {d : Disk} {h : Heap} (hf : ∀ o ∈ h.list, o < h.next) {nv : Value} {n : List UInt8}
    (hn : IsStr L.cmem h nv n) (hm : d.files (cut n) = none) :
    fileCall L .readFile [nv] d h = .ok (.null, d, h) ∧ strlenF L.cmem [.null] h = .ub := by
  refine ⟨?_, rfl⟩
  rcases c60_read_file hL (d := d) hf hn with ⟨e, _⟩ | ⟨_, _, _, _, _, _, e, _⟩
  · exact e
  · rw [hm] at e; cases e

/-- **C60.** A text with a NUL in it does not survive: `write_file`, then `read_file`, gives a shorter one. -/
theorem c60_defect_nul {L : FileEnv} (hL : NewStreams L) {d d' : Disk} {h h' h'' : Heap} (hf : ∀ o ∈ h.list, o < h.next) {nv sv : Value} {n x : List UInt8}
    {o : Nat} (hn : IsStr L.cmem h nv n) (hx : IsStr L.cmem h sv x) (h0 : 0 ∈ x)
    (hw : fileCall L .writeFile [nv, sv] d h = .ok (.bool true, d', h'))
    (hr : fileCall L .readFile [nv] d' h' = .ok (.str o, d', h'')) :
    ∃ y, IsStr L.cmem h'' (.str o) y ∧ y.length < x.length := by
  rcases c60_write_file hL (d := d) hn hx with ⟨e, _⟩ | ⟨d1, e, e1, _⟩
  · rw [hw] at e; simp at e
  · rw [hw] at e
    simp only [Res.ok.injEq, Prod.mk.injEq, true_and] at e
    obtain ⟨rfl, rfl⟩ := e
    rcases c60_read_file hL (d := d') hf hn with ⟨e2, e3⟩ | ⟨p, h2, c, e2, _, _, e3, e4⟩
    · rw [hr] at e2; simp at e2
    · rw [hr] at e2
      simp only [Res.ok.injEq, Prod.mk.injEq, true_and, Value.str.injEq] at e2
      obtain ⟨rfl, rfl⟩ := e2
      rw [e1] at e3; cases e3
      refine ⟨cut x, e4, ?_⟩
      have hle : (cut x).length ≤ x.length := (List.takeWhile_prefix _).length_le
      rcases Nat.lt_or_eq_of_le hle with h | h
      · exact h
      · exfalso
        have : cut x = x := List.IsPrefix.eq_of_length (List.takeWhile_prefix _) h
        rw [← this] at h0
        exact cut_no_nul x h0

/-! ## Examples -/

/-- A C library which can have two streams, and writes the first byte which waits at once. -/
def fileEnv : FileEnv where
  cmem := fun p => match p with
    | 0 => bytes "f"
    | 1 => bytes "w"
    | 2 => bytes "ab"
    | 3 => bytes "rb"
    | 4 => bytes "x = 1"
    | 5 => bytes "a+b"
    | _ => bytes "hello, "
  openAt := fun d _ _ => if (d.streams 8).isNone then some 8 else if (d.streams 16).isNone then some 16 else none
  early := fun _ => 1

/-- A disk with the files `f` and `g`. -/
def someDisk : Disk where
  files := fun n => if n = bytes "f" then some (bytes "old text") else if n = bytes "g" then some [] else none
  streams := fun _ => none

theorem fileEnv_new : NewStreams fileEnv := by
  intro d n m a h
  simp only [fileEnv] at h
  split at h
  · rename_i h8
    cases h; exact ⟨Option.isNone_iff_eq_none.1 h8, by decide, by decide⟩
  · split at h
    · rename_i h16
      cases h; exact ⟨Option.isNone_iff_eq_none.1 h16, by decide, by decide⟩
    · cases h

/-- The value a call gives, and what the file `f` contains then. -/
def shown (x : Res (Value × Disk × Heap)) : Option (Value × Option (List UInt8)) :=
  match x with
  | .ok (v, d, _) => some (v, d.files (bytes "f"))
  | _ => none

/-- Calls one after the other. -/
def andThen (x : Res (Value × Disk × Heap)) (f : Value → Disk → Heap → Res (Value × Disk × Heap)) : Res (Value × Disk × Heap) :=
  match x with
  | .ok (v, d, h) => f v d h
  | .abort => .abort
  | .ub => .ub
  | .limit => .limit
  | .timeout => .timeout

/-- Opened for writing the file is empty; of "hello, " the first byte is in the file at once, the rest when it is closed. -/
example : shown (fileCall fileEnv .fopen [.cstr 0, .cstr 1] someDisk {}) = some (.native 0, some []) ∧
    shown (andThen (fileCall fileEnv .fopen [.cstr 0, .cstr 1] someDisk {}) fun v d h => fileCall fileEnv .fwrite [v, .cstr 6] d h) =
      some (intVal 7, some (bytes "h")) ∧
    shown (andThen (fileCall fileEnv .fopen [.cstr 0, .cstr 1] someDisk {}) fun v d h =>
      andThen (fileCall fileEnv .fwrite [v, .cstr 6] d h) fun _ d h => fileCall fileEnv .fclose [v] d h) =
      some (.null, some (bytes "hello, ")) := by
  decide +kernel

/-- What is appended goes to the end, wherever the position is. -/
example : shown (andThen (fileCall fileEnv .fopen [.cstr 0, .cstr 5] someDisk {}) fun v d h =>
    andThen (fileCall fileEnv .fseek [v, intVal 2] d h) fun _ d h =>
      andThen (fileCall fileEnv .fwrite [v, .cstr 6, intVal 5] d h) fun _ d h => fileCall fileEnv .fclose [v] d h) =
      some (.null, some (bytes "old texthello")) := by
  decide +kernel

/-- Closing twice is undefined; opening a missing file for reading gives null. -/
example : shown (andThen (fileCall fileEnv .fopen [.cstr 0, .cstr 3] someDisk {}) fun v d h =>
    andThen (fileCall fileEnv .fclose [v] d h) fun _ d h => fileCall fileEnv .fclose [v] d h) = none ∧
    shown (fileCall fileEnv .fopen [.cstr 2, .cstr 3] someDisk {}) = some (.null, some (bytes "old text")) ∧
    shown (fileCall fileEnv .fsize [.null] someDisk {}) = none := by
  decide +kernel

/-- The hypotheses of the theorems are met. -/
example : IsStr fileEnv.cmem {} (.cstr 0) (bytes "f") ∧ IsStr fileEnv.cmem {} (.cstr 1) (bytes "w") ∧ IsMode (cut (bytes "w")) ⟨.write, false⟩ ∧
    IsMode (cut (bytes "a+b")) ⟨.append, true⟩ ∧ AreStrs fileEnv.cmem {} [.cstr 4, .cstr 6] [bytes "x = 1", bytes "hello, "] := by
  refine ⟨(by decide +kernel : _ = _), (by decide +kernel : _ = _), ⟨[], by decide +kernel⟩, ⟨bytes "+b", by decide +kernel⟩,
    (by decide +kernel : _ = _), (by decide +kernel : _ = _), trivial⟩

/-- `c60_write_pieces` for them. -/
example : ∃ v d1 h1 rs d2 d3, fileCall fileEnv .fopen [.cstr 0, .cstr 1] someDisk {} = .ok (v, d1, h1) ∧
    fileCalls fileEnv .fwrite v [.cstr 4, .cstr 6] d1 h1 = .ok (rs, d2, h1) ∧ fileCall fileEnv .fclose [v] d2 h1 = .ok (.null, d3, h1) ∧
    d3.files (bytes "f") = some (bytes "x = 1hello, ") ∧ d3.files (bytes "g") = some [] := by
  have hf : ∀ o ∈ ({} : Heap).list, o < ({} : Heap).next := by intro o ho; cases ho
  have hn : IsStr fileEnv.cmem {} (.cstr 0) (bytes "f") := (by decide +kernel : _ = _)
  have hm : IsStr fileEnv.cmem {} (.cstr 1) (bytes "w") := (by decide +kernel : _ = _)
  have hx : AreStrs fileEnv.cmem {} [.cstr 4, .cstr 6] [bytes "x = 1", bytes "hello, "] :=
    ⟨(by decide +kernel : _ = _), (by decide +kernel : _ = _), trivial⟩
  have hmode : IsMode (cut (bytes "w")) ⟨.write, false⟩ := ⟨[], by decide +kernel⟩
  have ho : fileCall fileEnv .fopen [.cstr 0, .cstr 1] someDisk {} = .ok (_, _, _) := rfl
  obtain ⟨rs, d2, d3, e1, e2, e3, e4, _⟩ := c60_write_pieces fileEnv_new hf hn hm hmode (by decide) ho (by decide) hx
  refine ⟨_, _, _, rs, d2, d3, ho, e1, e2, ?_, ?_⟩
  · rw [show bytes "f" = cut (bytes "f") by decide +kernel, e3]
    decide +kernel
  · rw [e4 (bytes "g") (by decide +kernel)]
    decide +kernel

/-- The file `f` in pieces. -/
example : pieces (bytes "old text") [3, 0, 4, 9, 2] = [bytes "old", [], bytes " tex", bytes "t", []] := by decide +kernel

end Tiny
