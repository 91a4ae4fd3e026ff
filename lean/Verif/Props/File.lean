import Verif.Proofs.StdFile

/-!
# C60: files
-/

namespace Tiny
open Spec Tiny.Std

theorem mode_lookup {m : List UInt8} {mode : OpenMode} (h : IsMode m mode) : openModes.lookup m = some mode := by
  obtain ⟨r, hr, rfl, hb⟩ := h
  obtain ⟨k, b⟩ := mode
  simp only [List.mem_cons, List.not_mem_nil, or_false] at hr
  rcases hr with rfl | rfl | rfl | rfl | rfl <;> cases k <;> cases b <;>
    first | decide +kernel | (exfalso; revert hb; decide +kernel)

theorem cText_cut (b : List UInt8) : cText (b ++ [0]) = cut b := cText_nul b

theorem _root_.Tiny.Spec.OnlyTouches.trans {a : Nat} {n : List UInt8} {d d' d'' : Disk} (h : OnlyTouches a n d d') (h' : OnlyTouches a n d' d'') :
    OnlyTouches a n d d'' :=
  ⟨fun m hm => (h'.files m hm).trans (h.files m hm), fun b hb => (h'.streams b hb).trans (h.streams b hb)⟩

theorem _root_.Tiny.Spec.SameStream.trans {a : Nat} {d d' d'' : Disk} {s s' s'' : Stream} (h : SameStream a d s d' s') (h' : SameStream a d' s' d'' s'') :
    SameStream a d s d'' s'' :=
  ⟨h'.isOpen, h'.file.trans h.file, h'.mode.trans h.mode, fun x => h.file ▸ h'.there (h.file ▸ h.there x),
    h.only.trans (h.file ▸ h'.only)⟩

theorem _root_.Tiny.Spec.SameStream.refl {a : Nat} {d : Disk} {s : Stream} (h : d.streams a = some s) : SameStream a d s d s :=
  ⟨h, rfl, rfl, id, fun _ _ => rfl, fun _ _ => rfl⟩

/-- **C60.** `fopen(name, mode)`: if the file cannot be opened - always if it is to be read and does not exist -, the result is null
and nothing has changed. Otherwise the result is a new stream at the position 0. Opening for writing empties the file (or makes
one), opening for appending makes one if there is none. No other file and no other stream changes. -/
theorem c60_fopen {L : FileEnv} (hL : NewStreams L) {d : Disk} {h : Heap} (hf : ∀ o ∈ h.list, o < h.next) {nv mv : Value}
    {n m : List UInt8} (hn : IsStr L.cmem h nv n) (hm : IsStr L.cmem h mv m) {mode : OpenMode} (hmode : IsMode (cut m) mode) :
    (fileCall L .fopen [nv, mv] d h = .ok (.null, d, h) ∧
      (mode.kind = .read ∧ d.files (cut n) = none ∨ L.openAt d (cut n) mode = none)) ∨
    ∃ v d' h' a s, fileCall L .fopen [nv, mv] d h = .ok (v, d', h') ∧ Extends h h' ∧ HandleAt h' v a ∧ d.streams a = none ∧
      d'.streams a = some s ∧ s.file = cut n ∧ s.mode = mode ∧ s.last = .nothing ∧ s.pending = [] ∧ position d' s = 0 ∧
      content d' s = (if mode.kind = .write then [] else (d.files (cut n)).getD []) ∧
      d'.files (cut n) = some (content d' s) ∧ OnlyTouches a (cut n) d d' := by
  have key : fileCall L .fopen [nv, mv] d h = (fopen L d (cut n) (cut m) >>= fun r => match r.1 with
      | none => .ok (.null, r.2, h)
      | some a => .ok (.native (h.alloc (.native a fileProp)).1, r.2, (h.alloc (.native a fileProp)).2)) := by
    show libFopen L [nv, mv] d h = _
    rw [libFopen, toCStr_of hn, Res.bind_ok, toCStr_of hm, Res.bind_ok, cText_cut, cText_cut]
    rfl
  rcases fopen_of hL (n := cut n) (d := d) (mode_lookup hmode) with ⟨e, hw⟩ | ⟨a, d', s, e, _, h1, _, h2, h3, h4, h5, h6, h7, h8, h9, h10, _, h11⟩
  · exact .inl ⟨by rw [key, e]; rfl, hw⟩
  · obtain ⟨x1, x2, x3, _⟩ := Extends.alloc hf (.native a fileProp)
    exact .inr ⟨_, _, _, a, s, by rw [key, e]; rfl, x1, ⟨_, _, rfl, x2, x3, h2⟩, h1, h3, h4, h5, h7, h6, h8, h10, h9, h11⟩

theorem load_buf {x : List UInt8} {k : Nat} (h : x.length ≤ k) : ∃ b r, memcpy (newBuf (k + 1)) 0 x x.length = .ok b ∧
    bufSet b k 0 = .ok (x.map some ++ r) := by
  refine ⟨part x (k - x.length + 1), (List.replicate (k - x.length + 1) none).set (k - x.length) (some 0), ?_, ?_⟩
  · have := memcpy_part (src := x) (rest := []) (pre := []) (k := k - x.length + 1)
    rw [List.append_nil, List.nil_append, show x.length + (k - x.length + 1) = k + 1 by omega] at this
    exact this
  · rw [bufSet, if_pos (by simp [part]; omega), part, List.set_append_right _ _ (by simpa using h), List.length_map]

/-- **C60.** `fread(f, k)` gives a new string: the next `k` bytes, fewer at the end of the file. -/
theorem c60_fread {L : FileEnv} {d : Disk} {h : Heap} (hf : ∀ o ∈ h.list, o < h.next) {v : Value} {a : Nat} {s : Stream}
    (hv : HandleAt h v a) (hs : d.streams a = some s) (hr : MayRead s) {k : Nat} (hk : k < 2 ^ 31 - 1) :
    ∃ o d' h' s', fileCall L .fread [v, intVal k] d h = .ok (.str o, d', h') ∧ Extends h h' ∧ o ∉ h.list ∧
      IsStr L.cmem h' (.str o) (((content d s).drop (position d s)).take k) ∧ SameStream a d s d' s' ∧ MayRead s' ∧
      content d' s' = content d s ∧ position d' s' = min (position d s + k) (max (position d s) (content d s).length) ∧
      d'.files = d.files := by
  obtain ⟨d', s', h1, h2, h3, h4, h5, h6, h7⟩ := fread_of hs hr.1 hr.2.2 hr.2.1 k
  generalize hx : ((content d s).drop (position d s)).take k = x at h1 h6
  have hxl : x.length ≤ k := by rw [← hx]; simp; omega
  obtain ⟨b, r, e1, e2⟩ := load_buf hxl
  obtain ⟨o, h', n1, n2, n3, n4⟩ := newString_of (cmem := L.cmem) hf (l := x) (r := r)
  have hfit : Fits32 (k : Int) := ⟨by omega, by omega⟩
  refine ⟨o, d', h', s', ?_, n3, n4, n2, h2, ⟨by rw [h2.mode]; exact hr.1, by rw [h5]; decide, h4⟩, h3, ?_, h7⟩
  · show libFread [v, intVal k] d h = _
    rw [libFread, fileAt_of hv, Res.bind_ok, toNumberInt_of hfit, Res.bind_ok, if_neg (by omega)]
    rw [Int.toNat_natCast, h1, Res.bind_ok]
    show (memcpy (newBuf (k + 1)) 0 x x.length >>= _) = _
    rw [e1, Res.bind_ok, e2, Res.bind_ok, n1]
    rfl
  · rw [h6, ← hx, List.length_take, List.length_drop]; omega

theorem newString_len {k : Nat} : Fits32 (k : Int) ↔ k < 2 ^ 31 := by
  constructor
  · intro h; have := h.2; omega
  · intro h; exact ⟨by omega, by omega⟩

/-- **C60.** `fwrite(f, text)` writes the text, up to the first NUL in it, where the stream is - at the end of a file opened for
appending -, and gives its length. -/
theorem c60_fwrite {L : FileEnv} {d : Disk} {h : Heap} {v sv : Value} {a : Nat} {s : Stream} {x : List UInt8}
    (hv : HandleAt h v a) (hs : d.streams a = some s) (hw : MayWrite s) (hx : IsStr L.cmem h sv x) :
    ∃ r d' s', fileCall L .fwrite [v, sv] d h = .ok (r, d', h) ∧ (x.length < 2 ^ 31 → r = intVal (cut x).length) ∧
      SameStream a d s d' s' ∧ MayWrite s' ∧ content d' s' = written (content d s) (writesAt d s) (cut x) ∧
      position d' s' = (if cut x = [] then position d s else writesAt d s + (cut x).length) := by
  obtain ⟨d', s', h1, h2, h3, h4, h5⟩ := fwrite_of (L := L) hs hw.1 hw.2 (cut x)
  have hl : (cut x).length ≤ x.length := (List.takeWhile_prefix _).length_le
  refine ⟨newInt (cut x).length, d', s', ?_, fun hl2 => newInt_fits (newString_len.2 (by omega)), h2, ⟨by rw [h2.mode]; exact hw.1, by rw [h4]; decide⟩, h3, h5⟩
  show libFwrite L [v, sv] d h = _
  rw [libFwrite, fileAt_of hv, Res.bind_ok, toCStr_of hx, Res.bind_ok, cText_cut]
  show (if ((cut x).length : Int) < 0 ∨ ((x ++ [0]).length : Int) < ((cut x).length : Int) then Res.ub else _) = _
  rw [if_neg (by rw [List.length_append]; omega), Int.toNat_natCast]
  have e : (x ++ [0]).take (cut x).length = cut x := by
    rw [List.take_append_of_le_length hl]
    exact (List.prefix_iff_eq_take.1 (List.takeWhile_prefix _)).symm
  rw [e, h1]
  rfl

/-- **C60.** `fwrite(f, text, k)` writes the first `k` bytes of the text, NULs among them; `k` may be one more than there are, then
a NUL follows. -/
theorem c60_fwrite_count {L : FileEnv} {d : Disk} {h : Heap} {v sv : Value} {a : Nat} {s : Stream} {x : List UInt8}
    (hv : HandleAt h v a) (hs : d.streams a = some s) (hw : MayWrite s) (hx : IsStr L.cmem h sv x) {k : Nat}
    (hk : k ≤ x.length + 1) (hk2 : k < 2 ^ 31) :
    ∃ d' s', fileCall L .fwrite [v, sv, intVal k] d h = .ok (intVal k, d', h) ∧
      SameStream a d s d' s' ∧ MayWrite s' ∧ content d' s' = written (content d s) (writesAt d s) ((x ++ [0]).take k) ∧
      position d' s' = (if k = 0 then position d s else writesAt d s + k) := by
  obtain ⟨d', s', h1, h2, h3, h4, h5⟩ := fwrite_of (L := L) hs hw.1 hw.2 ((x ++ [0]).take k)
  have hl : ((x ++ [0]).take k).length = k := by simp; omega
  refine ⟨d', s', ?_, h2, ⟨by rw [h2.mode]; exact hw.1, by rw [h4]; decide⟩, h3, ?_⟩
  · show libFwrite L [v, sv, intVal k] d h = _
    rw [libFwrite, fileAt_of hv, Res.bind_ok, toCStr_of hx, Res.bind_ok]
    show (toNumberInt (intVal k) >>= _) = _
    rw [toNumberInt_of (newString_len.2 hk2), Res.bind_ok]
    show (if (k : Int) < 0 ∨ ((x ++ [0]).length : Int) < (k : Int) then Res.ub else _) = _
    rw [if_neg (by rw [List.length_append]; simp; omega), Int.toNat_natCast, h1, Res.bind_ok, hl]
    show Res.ok (newInt k, d', h) = _
    rw [newInt_fits (newString_len.2 hk2)]
  · rw [h5, hl]
    by_cases h0 : k = 0
    · subst h0; simp
    · rw [if_neg h0, if_neg (by intro h; rw [h] at hl; simp at hl; omega)]

/-- **C60.** `fwrite(f, text, k)` with a larger `k`, or a negative one, is undefined: there is no check. -/
theorem c60_fwrite_beyond {L : FileEnv} {d : Disk} {h : Heap} {v sv : Value} {a : Nat} {x : List UInt8}
    (hv : HandleAt h v a) (hx : IsStr L.cmem h sv x) {k : Int} (hf : Fits32 k) (hk : k < 0 ∨ x.length + 1 < k) :
    fileCall L .fwrite [v, sv, intVal k] d h = .ub := by
  show libFwrite L [v, sv, intVal k] d h = _
  rw [libFwrite, fileAt_of hv, Res.bind_ok, toCStr_of hx, Res.bind_ok]
  show (toNumberInt (intVal k) >>= _) = _
  rw [toNumberInt_of hf, Res.bind_ok]
  show (if k < 0 ∨ ((x ++ [0]).length : Int) < k then Res.ub else _) = _
  rw [if_pos (by rw [List.length_append]; simp; omega)]

/-- **C60.** `fseek(f, k)` sets the position (a negative `k` does not). The stream may then be read or written, as it was opened. -/
theorem c60_fseek {L : FileEnv} {d : Disk} {h : Heap} {v : Value} {a : Nat} {s : Stream}
    (hv : HandleAt h v a) (hs : d.streams a = some s) {k : Int} (hk : Fits32 k) :
    ∃ d' s', fileCall L .fseek [v, intVal k] d h = .ok (.null, d', h) ∧ SameStream a d s d' s' ∧
      content d' s' = content d s ∧ position d' s' = (if k < 0 then position d s else k.toNat) ∧ s'.pending = [] ∧ s'.last = .nothing := by
  obtain ⟨d', s', h1, h2, h3, h4, h5, h6⟩ := fseek_of hs false k
  refine ⟨d', s', ?_, h2, h3, ?_, h4, h5⟩
  · show libFseek [v, intVal k] d h = _
    rw [libFseek, fileAt_of hv, Res.bind_ok, toNumberInt_of hk, Res.bind_ok, h1]
    rfl
  · have e : seekTo (content d s) false k = k := by simp [seekTo]
    rw [h6, e]

/-- **C60.** `fsize(f)` is the number of bytes in the file, with what was written to it. But it also sets the position to 0. -/
theorem c60_fsize {L : FileEnv} {d : Disk} {h : Heap} {v : Value} {a : Nat} {s : Stream}
    (hv : HandleAt h v a) (hs : d.streams a = some s) :
    ∃ r d' s', fileCall L .fsize [v] d h = .ok (r, d', h) ∧ ((content d s).length < 2 ^ 31 → r = intVal (content d s).length) ∧
      SameStream a d s d' s' ∧ content d' s' = content d s ∧ position d' s' = 0 ∧ s'.pending = [] ∧ s'.last = .nothing := by
  obtain ⟨d1, s1, h1, h2, h3, h4, h5, h6⟩ := fseek_of hs true 0
  obtain ⟨d2, s2, g1, g2, g3, g4, g5, g6⟩ := fseek_of h2.isOpen false 0
  refine ⟨newInt (content d s).length, d2, s2, ?_, fun hl => newInt_fits (newString_len.2 hl), h2.trans g2, g3.trans h3, ?_, g4, g5⟩
  · show libFsize [v] d h = _
    rw [libFsize, fileAt_of hv, Res.bind_ok, h1, Res.bind_ok, ftell_of h2.isOpen h4, Res.bind_ok, g1, Res.bind_ok, h6, seekTo, if_pos rfl,
      Int.add_zero, if_neg (by omega), Int.toNat_natCast]
  · have e : seekTo (content d1 s1) false 0 = 0 := by simp [seekTo]
    rw [g6, e]; rfl

/-- **C60.** After `fclose(f)` the file contains everything that was written, and the stream is not open any more. -/
theorem c60_fclose {L : FileEnv} {d : Disk} {h : Heap} {v : Value} {a : Nat} {s : Stream}
    (hv : HandleAt h v a) (hs : d.streams a = some s) (hn : d.files s.file ≠ none) :
    ∃ d', fileCall L .fclose [v] d h = .ok (.null, d', h) ∧ d'.files s.file = some (content d s) ∧ d'.streams a = none ∧
      OnlyTouches a s.file d d' := by
  obtain ⟨d', h1, h2⟩ := fclose_of hs hn
  refine ⟨d', ?_, h2⟩
  show libFclose [v] d h = _
  rw [libFclose, fileAt_of hv, Res.bind_ok, h1]
  rfl

/-- **C60.** A stream which is not open - closed before, or the null which `fopen` gives - may not be used: the behaviour is
undefined. -/
theorem c60_closed {L : FileEnv} {d : Disk} {h : Heap} {v sv : Value} {x : List UInt8} (hx : IsStr L.cmem h sv x) (k : Nat)
    (hv : (∃ a, HandleAt h v a ∧ d.streams a = none) ∨ v = .null ∧ d.streams 0 = none) :
    fileCall L .fclose [v] d h = .ub ∧ fileCall L .fsize [v] d h = .ub ∧ fileCall L .fread [v, intVal k] d h = .ub ∧
      fileCall L .fseek [v, intVal k] d h = .ub ∧ fileCall L .fwrite [v, sv] d h = .ub := by
  have key : ∃ a, fileAt h v = .ok a ∧ d.stream a = .ub := by
    rcases hv with ⟨a, h1, h2⟩ | ⟨rfl, h2⟩
    · exact ⟨a, fileAt_of h1, by rw [Disk.stream, h2]⟩
    · exact ⟨0, rfl, by rw [Disk.stream, h2]⟩
  obtain ⟨a, e1, e2⟩ := key
  have hsk : ∀ b k, fseek d a b k = .ub := by intro b k; rw [fseek, e2]; rfl
  have hnum : ∀ (k : Int) (f : Int → Res (Value × Disk × Heap)), (∀ k, f k = .ub) → (toNumberInt (intVal k) >>= f) = .ub := by
    intro k f hf
    simp only [toNumberInt, intVal]
    split
    · rw [Res.bind_ok]; exact hf _
    · rfl
  refine ⟨?_, ?_, ?_, ?_, ?_⟩
  · show libFclose [v] d h = _
    rw [libFclose, e1, Res.bind_ok, fclose, e2]; rfl
  · show libFsize [v] d h = _
    rw [libFsize, e1, Res.bind_ok, hsk]; rfl
  · show libFread [v, intVal k] d h = _
    rw [libFread, e1, Res.bind_ok]
    refine hnum _ _ fun k => ?_
    split
    · rfl
    · rw [fread, e2]; rfl
  · show libFseek [v, intVal k] d h = _
    rw [libFseek, e1, Res.bind_ok]
    refine hnum _ _ fun k => ?_
    rw [hsk]; rfl
  · show libFwrite L [v, sv] d h = _
    rw [libFwrite, e1, Res.bind_ok, toCStr_of hx, Res.bind_ok]
    show (if _ then Res.ub else _) = _
    split
    · rfl
    · rw [fwrite, e2]; rfl

/-- **C60.** A stream opened for one direction only, used in the other: `fread` gives an empty string and `fwrite` gives 0, and nothing
has changed. -/
theorem c60_wrong_way {L : FileEnv} {d : Disk} {h : Heap} (hf : ∀ o ∈ h.list, o < h.next) {v sv : Value} {a : Nat} {s : Stream} {x : List UInt8}
    (hv : HandleAt h v a) (hs : d.streams a = some s) (hb : s.mode.both = false) :
    (s.mode.kind ≠ .read → ∀ k : Nat, k < 2 ^ 31 - 1 → ∃ o h', fileCall L .fread [v, intVal k] d h = .ok (.str o, d, h') ∧ Extends h h' ∧
      IsStr L.cmem h' (.str o) []) ∧
    (s.mode.kind = .read → IsStr L.cmem h sv x → fileCall L .fwrite [v, sv] d h = .ok (intVal 0, d, h)) := by
  constructor
  · intro hk k hl
    obtain ⟨b, r, e1, e2⟩ := load_buf (x := []) (k := k) (by simp)
    obtain ⟨o, h', n1, n2, n3, n4⟩ := newString_of (cmem := L.cmem) hf (l := []) (r := r)
    refine ⟨o, h', ?_, n3, n2⟩
    show libFread [v, intVal k] d h = _
    rw [libFread, fileAt_of hv, Res.bind_ok, toNumberInt_of (newString_len.2 (by omega)), Res.bind_ok, if_neg (by omega), Int.toNat_natCast,
      fread, stream_of hs, Res.bind_ok, if_pos ⟨hk, hb⟩, Res.bind_ok]
    show (memcpy (newBuf (k + 1)) 0 [] [].length >>= _) = _
    rw [e1, Res.bind_ok, e2, Res.bind_ok, n1]
    rfl
  · intro hk hx
    have hl : (cut x).length ≤ x.length := (List.takeWhile_prefix _).length_le
    show libFwrite L [v, sv] d h = _
    rw [libFwrite, fileAt_of hv, Res.bind_ok, toCStr_of hx, Res.bind_ok, cText_cut]
    show (if ((cut x).length : Int) < 0 ∨ ((x ++ [0]).length : Int) < ((cut x).length : Int) then Res.ub else _) = _
    rw [if_neg (by rw [List.length_append]; omega), fwrite, stream_of hs, Res.bind_ok, if_pos ⟨hk, hb⟩]
    rfl

/-- **C60.** Reading directly after writing (without `fseek` or `fsize` in between), writing directly after reading, and reading a
negative number of bytes, are undefined. -/
theorem c60_defect_mixed {L : FileEnv} {d : Disk} {h : Heap} {v sv : Value} {a : Nat} {s : Stream} {x : List UInt8}
    (hv : HandleAt h v a) (hs : d.streams a = some s) :
    (s.mode.both = true → s.last = .writing → ∀ k : Nat, k < 2 ^ 31 → fileCall L .fread [v, intVal k] d h = .ub) ∧
    (s.mode.both = true → s.last = .reading → IsStr L.cmem h sv x → fileCall L .fwrite [v, sv] d h = .ub) ∧
    (∀ k : Int, Fits32 k → k < 0 → fileCall L .fread [v, intVal k] d h = .ub) := by
  refine ⟨fun hb hl k hk => ?_, fun hb hl hx => ?_, fun k hk h0 => ?_⟩
  · show libFread [v, intVal k] d h = _
    rw [libFread, fileAt_of hv, Res.bind_ok, toNumberInt_of (newString_len.2 hk), Res.bind_ok]
    split
    · rfl
    · rw [fread, stream_of hs, Res.bind_ok, if_neg (by simp [hb]), if_pos hl]
      rfl
  · show libFwrite L [v, sv] d h = _
    rw [libFwrite, fileAt_of hv, Res.bind_ok, toCStr_of hx, Res.bind_ok, cText_cut]
    show (if _ then Res.ub else _) = _
    split
    · rfl
    · rw [fwrite, stream_of hs, Res.bind_ok, if_neg (by simp [hb]), if_pos hl]
      rfl
  · show libFread [v, intVal k] d h = _
    rw [libFread, fileAt_of hv, Res.bind_ok, toNumberInt_of hk, Res.bind_ok, if_pos (.inl h0)]

/-! ## Whole files -/

theorem slurp_of {d : Disk} {a : Nat} {s : Stream} (hs : d.streams a = some s) (hr : MayRead s) (hf : d.files s.file ≠ none) :
    ∃ r d', slurp d a = .ok ((content d s).map some ++ r, (content d s).length, d') ∧ d'.files s.file = some (content d s) ∧
      d'.streams a = none ∧ OnlyTouches a s.file d d' := by
  obtain ⟨d1, s1, h1, h2, h3, h4, h5, h6⟩ := fseek_of hs true 0
  obtain ⟨d2, s2, g1, g2, g3, g4, g5, g6⟩ := fseek_of h2.isOpen false 0
  have hmode : s2.mode = s.mode := g2.mode.trans h2.mode
  obtain ⟨d3, s3, f1, f2, f3, f4, f5, f6, f7⟩ := fread_of g2.isOpen (by rw [hmode]; exact hr.1) g4 (by rw [g5]; decide) (content d s).length
  have hc : content d2 s2 = content d s := g3.trans h3
  have hp : position d2 s2 = 0 := by
    have e : seekTo (content d1 s1) false 0 = 0 := by simp [seekTo]
    rw [g6, e]; rfl
  rw [hc, hp, List.drop_zero, List.take_length] at f1
  obtain ⟨b, r, e1, e2⟩ := load_buf (Nat.le_refl (content d s).length)
  have hsame := (h2.trans g2).trans f2
  obtain ⟨d4, c1, c2, c3, c4⟩ := fclose_of f2.isOpen (by rw [hsame.file]; exact hsame.there hf)
  have hsz : ftell d1 a = .ok (content d s).length := by
    rw [ftell_of h2.isOpen h4, h6, seekTo, if_pos rfl, Int.add_zero, if_neg (by omega), Int.toNat_natCast]
  refine ⟨r, d4, ?_, ?_, c3, hsame.only.trans (hsame.file ▸ c4)⟩
  · rw [slurp, h1, Res.bind_ok, hsz, Res.bind_ok, g1, Res.bind_ok, f1, Res.bind_ok]
    show (memcpy _ _ _ _ >>= _) = _
    rw [e1, Res.bind_ok, e2, Res.bind_ok, c1]; rfl
  · rw [← hsame.file, c2, f3, hc]

theorem reads_rb : openModes.lookup (nameOf "rb") = some ⟨.read, false⟩ := by decide +kernel

theorem writes_w : openModes.lookup (nameOf "w") = some ⟨.write, false⟩ := by decide +kernel

theorem disk_ext {d d' : Disk} (h1 : ∀ n, d'.files n = d.files n) (h2 : ∀ a, d'.streams a = d.streams a) : d' = d := by
  cases d; cases d'
  simp only [Disk.mk.injEq]
  exact ⟨funext h1, funext h2⟩

/-- Opening a file for reading, reading all of it and closing it: nothing has changed. -/
theorem open_slurp {L : FileEnv} (hL : NewStreams L) {d : Disk} (n : List UInt8) :
    (fopen L d n (nameOf "rb") = .ok (none, d) ∧ (d.files n = none ∨ L.openAt d n ⟨.read, false⟩ = none)) ∨
    ∃ a d' c r, fopen L d n (nameOf "rb") = .ok (some a, d') ∧ d.files n = some c ∧ slurp d' a = .ok (c.map some ++ r, c.length, d) := by
  rcases fopen_of hL (n := n) (d := d) reads_rb with ⟨e, hw⟩ | ⟨a, d', s, e, _, h1, _, h2, h3, h4, h5, h6, h7, h8, h9, h10, h11, h12⟩
  · exact .inl ⟨e, hw.imp And.right id⟩
  · obtain ⟨g1, g2⟩ := h11 rfl
    obtain ⟨r, d'', s1, s2, s3, s4⟩ := slurp_of h3 ⟨.inl (by rw [h5]), by rw [h7]; decide, h6⟩ (by rw [h4, h9]; simp)
    have e1 : d.files n = some (content d' s) := by rw [← g2]; exact h9
    refine .inr ⟨a, d', content d' s, r, e, e1, ?_⟩
    rw [s1]
    rw [h4] at s2 s4
    congr 3
    refine disk_ext (fun m => ?_) (fun b => ?_)
    · by_cases hm : m = n
      · rw [hm, s2, e1]
      · rw [s4.files m hm, g2]
    · by_cases hb : b = a
      · rw [hb, s3, h1]
      · rw [s4.streams b hb, h12.streams b hb]

/-- **C60.** `read_file(name)` gives null if the file does not exist or cannot be opened; otherwise a new string with exactly the bytes
of the file. No file and no stream has changed. -/
theorem c60_read_file {L : FileEnv} (hL : NewStreams L) {d : Disk} {h : Heap} (hf : ∀ o ∈ h.list, o < h.next) {nv : Value} {n : List UInt8}
    (hn : IsStr L.cmem h nv n) :
    (fileCall L .readFile [nv] d h = .ok (.null, d, h) ∧ (d.files (cut n) = none ∨ L.openAt d (cut n) ⟨.read, false⟩ = none)) ∨
    ∃ o h' c, fileCall L .readFile [nv] d h = .ok (.str o, d, h') ∧ Extends h h' ∧ o ∉ h.list ∧ d.files (cut n) = some c ∧
      IsStr L.cmem h' (.str o) c := by
  have key : fileCall L .readFile [nv] d h = (fopen L d (cut n) (nameOf "rb") >>= fun r => match r.1 with
      | none => .ok (.null, r.2, h)
      | some a => slurp r.2 a >>= fun r => newString h r.1 r.2.1 >>= fun q => .ok (q.1, r.2.2, q.2)) := by
    show libReadFile L [nv] d h = _
    rw [libReadFile, toCStr_of hn, Res.bind_ok, cText_cut]
    rfl
  rcases open_slurp hL (d := d) (cut n) with ⟨e, hw⟩ | ⟨a, d', c, r, e1, e2, e3⟩
  · exact .inl ⟨by rw [key, e]; rfl, hw⟩
  · obtain ⟨o, h', n1, n2, n3, n4⟩ := newString_of (cmem := L.cmem) hf (l := c) (r := r)
    refine .inr ⟨o, h', c, ?_, n3, n4, e2, n2⟩
    rw [key, e1, Res.bind_ok]
    show (slurp d' a >>= _) = _
    rw [e3, Res.bind_ok]
    show (newString h (c.map some ++ r) c.length >>= _) = _
    rw [n1]; rfl

/-- **C60.** `write_file(name, text)` gives false if the file cannot be opened, and nothing has changed; otherwise true, and the file
contains the text, up to the first NUL in it, and nothing else; no other file and no stream has changed. -/
theorem c60_write_file {L : FileEnv} (hL : NewStreams L) {d : Disk} {h : Heap} {nv sv : Value} {n x : List UInt8}
    (hn : IsStr L.cmem h nv n) (hx : IsStr L.cmem h sv x) :
    (fileCall L .writeFile [nv, sv] d h = .ok (.bool false, d, h) ∧ L.openAt d (cut n) ⟨.write, false⟩ = none) ∨
    ∃ d', fileCall L .writeFile [nv, sv] d h = .ok (.bool true, d', h) ∧ d'.files (cut n) = some (cut x) ∧
      (∀ m, m ≠ cut n → d'.files m = d.files m) ∧ d'.streams = d.streams := by
  have key : fileCall L .writeFile [nv, sv] d h = (fopen L d (cut n) (nameOf "w") >>= fun r => match r.1 with
      | none => .ok (.bool false, r.2, h)
      | some a => fwrite L r.2 a (cut x) >>= fun q => fclose q.2 a >>= fun d => .ok (.bool true, d, h)) := by
    show libWriteFile L [nv, sv] d h = _
    rw [libWriteFile, toCStr_of hn, Res.bind_ok, cText_cut]
    congr 1
    funext r
    obtain ⟨f, d1⟩ := r
    cases f with
    | none => rfl
    | some a =>
      show (toCStr L h sv >>= _) = _
      rw [toCStr_of hx, Res.bind_ok, cText_cut]
  rcases fopen_of hL (n := cut n) (d := d) writes_w with ⟨e, hw⟩ | ⟨a, d', s, e, _, h1, _, h2, h3, h4, h5, h6, h7, h8, h9, h10, h11, h12⟩
  · refine .inl ⟨by rw [key, e]; rfl, ?_⟩
    rcases hw with ⟨hw, _⟩ | hw
    · cases hw
    · exact hw
  · obtain ⟨d1, s1, f1, f2, f3, f4, f5⟩ := fwrite_of (L := L) h3 (.inl (by rw [h5]; decide)) (by rw [h7]; decide) (cut x)
    obtain ⟨d2, c1, c2, c3, c4⟩ := fclose_of f2.isOpen (by rw [f2.file]; exact f2.there (by rw [h4, h9]; simp))
    have ht : OnlyTouches a (cut n) d d2 := (h12.trans (h4 ▸ f2.only)).trans ((f2.file.trans h4) ▸ c4)
    refine .inr ⟨d2, ?_, ?_, ht.files, ?_⟩
    · rw [key, e, Res.bind_ok]
      show (fwrite L d' a (cut x) >>= _) = _
      rw [f1, Res.bind_ok]
      show (fclose d1 a >>= _) = _
      rw [c1]; rfl
    · rw [← h4, ← f2.file, c2, f3, h10, if_pos rfl]
      have hwr : writesAt d' s = 0 := by rw [writesAt, h5, if_neg (by decide), h8]
      rw [hwr, written]
      split
      · rename_i hx0; rw [hx0]
      · simp
    · funext b
      by_cases hb : b = a
      · rw [hb, c3, h1]
      · exact ht.streams b hb

theorem cut_self {x : List UInt8} (h : 0 ∉ x) : cut x = x := by
  induction x with
  | nil => rfl
  | cons c r ih =>
    have hc : c ≠ 0 := fun e => h (by simp [e])
    rw [cut, List.takeWhile_cons, if_pos (by simp [hc])]
    exact congrArg _ (ih fun hm => h (List.mem_cons_of_mem _ hm))

/-- **C60.** What `write_file` wrote, `read_file` reads: the same text, if it contains no NUL. -/
theorem c60_roundtrip {L : FileEnv} (hL : NewStreams L) {d d' : Disk} {h h' : Heap} (hf : ∀ o ∈ h.list, o < h.next) {nv sv : Value} {n x : List UInt8}
    (hn : IsStr L.cmem h nv n) (hx : IsStr L.cmem h sv x) (h0 : 0 ∉ x)
    (hw : fileCall L .writeFile [nv, sv] d h = .ok (.bool true, d', h')) :
    fileCall L .readFile [nv] d' h' = .ok (.null, d', h') ∧ L.openAt d' (cut n) ⟨.read, false⟩ = none ∨
    ∃ o h'', fileCall L .readFile [nv] d' h' = .ok (.str o, d', h'') ∧ IsStr L.cmem h'' (.str o) x := by
  have hcut : cut x = x := cut_self h0
  rcases c60_write_file hL (d := d) hn hx with ⟨e, _⟩ | ⟨d1, e, e1, _⟩
  · rw [hw] at e; simp at e
  · rw [hw] at e
    simp only [Res.ok.injEq, Prod.mk.injEq, true_and] at e
    obtain ⟨rfl, rfl⟩ := e
    rcases c60_read_file hL (d := d') hf hn with ⟨e2, e3⟩ | ⟨o, h'', c, e2, _, _, e3, e4⟩
    · rw [e1] at e3
      exact .inl ⟨e2, e3.resolve_left (by simp)⟩
    · rw [e1, hcut] at e3
      injection e3 with e3
      subst e3
      exact .inr ⟨o, h'', e2, e4⟩

/-! ## Many calls -/

theorem written_end (c x : List UInt8) : written c c.length x = c ++ x := by
  rw [written]
  split
  · rename_i h; rw [h, List.append_nil]
  · rw [Nat.sub_self, List.replicate_zero, List.append_nil, List.take_length, List.drop_of_length_le (by omega), List.append_nil]

theorem areStrs_ext {cmem : Nat → List UInt8} {h h' : Heap} (hx : Extends h h') : ∀ {vs : List Value} {bs}, AreStrs cmem h vs bs → AreStrs cmem h' vs bs
  | [], [], _ => trivial
  | _ :: _, _ :: _, e => ⟨isStr_ext hx e.1, areStrs_ext hx e.2⟩
  | [], _ :: _, e => e.elim
  | _ :: _, [], e => e.elim

theorem fwrite_many {L : FileEnv} {h : Heap} {v : Value} {a : Nat} (hv : HandleAt h v a) : ∀ {vs : List Value} {xs : List (List UInt8)}
    {d : Disk} {s : Stream}, AreStrs L.cmem h vs xs → d.streams a = some s → MayWrite s → writesAt d s = (content d s).length →
    ∃ rs d' s', fileCalls L .fwrite v vs d h = .ok (rs, d', h) ∧ SameStream a d s d' s' ∧ content d' s' = content d s ++ (xs.map cut).flatten
  | [], [], d, s, _, hs, _, _ => ⟨[], d, s, rfl, .refl hs, by simp⟩
  | sv :: vs, x :: xs, d, s, hx, hs, hw, he => by
    obtain ⟨r, d1, s1, e1, _, e2, e3, e4, e5⟩ := c60_fwrite hv hs hw hx.1
    rw [he, written_end] at e4
    have he1 : writesAt d1 s1 = (content d1 s1).length := by
      rw [writesAt, e2.mode]
      split
      · rfl
      · rename_i hm
        rw [e5, e4, he, List.length_append]
        rw [writesAt, if_neg hm] at he
        split
        · rename_i h0; rw [h0, he]; rfl
        · rfl
    obtain ⟨rs, d2, s2, g1, g2, g3⟩ := fwrite_many hv hx.2 e2.isOpen e3 he1
    refine ⟨r :: rs, d2, s2, ?_, e2.trans g2, ?_⟩
    · rw [fileCalls, e1, Res.bind_ok]
      show (fileCalls L .fwrite v vs d1 h >>= _) = _
      rw [g1]; rfl
    · rw [g3, e4]; simp
  | [], _ :: _, _, _, hx, _, _, _ => hx.elim
  | _ :: _, [], _, _, hx, _, _, _ => hx.elim

/-- **C60.** A file which is opened for writing or appending, written to any number of times, and closed, then contains all these texts
in order - behind what was there, if it was opened for appending -, whatever the C library keeps back in between. No other file and
no other stream has changed. -/
theorem c60_write_pieces {L : FileEnv} (hL : NewStreams L) {d d1 : Disk} {h h1 : Heap} (hf : ∀ o ∈ h.list, o < h.next) {nv mv v : Value}
    {n m : List UInt8} (hn : IsStr L.cmem h nv n) (hm : IsStr L.cmem h mv m) {mode : OpenMode} (hmode : IsMode (cut m) mode)
    (hk : mode.kind ≠ .read) (ho : fileCall L .fopen [nv, mv] d h = .ok (v, d1, h1)) (hv : v ≠ .null) {vs : List Value}
    {xs : List (List UInt8)} (hx : AreStrs L.cmem h vs xs) :
    ∃ rs d2 d3, fileCalls L .fwrite v vs d1 h1 = .ok (rs, d2, h1) ∧ fileCall L .fclose [v] d2 h1 = .ok (.null, d3, h1) ∧
      d3.files (cut n) = some ((if mode.kind = .write then [] else (d.files (cut n)).getD []) ++ (xs.map cut).flatten) ∧
      (∀ m, m ≠ cut n → d3.files m = d.files m) ∧ d3.streams = d.streams := by
  rcases c60_fopen hL (d := d) hf hn hm hmode with ⟨e, _⟩ | ⟨w, d', h', a, s, e, g1, g2, g3, g4, g5, g6, g7, g8, g9, g10, g11, g12⟩
  · rw [ho] at e
    simp only [Res.ok.injEq, Prod.mk.injEq] at e
    exact absurd e.1 hv
  · rw [ho] at e
    simp only [Res.ok.injEq, Prod.mk.injEq] at e
    obtain ⟨rfl, rfl, rfl⟩ := e
    have he : writesAt d1 s = (content d1 s).length := by
      rw [writesAt]
      split
      · rfl
      · rename_i hna
        rw [g6] at hna
        have hw : mode.kind = .write := by cases hkk : mode.kind <;> simp_all
        rw [g9, g10, if_pos hw]; rfl
    obtain ⟨rs, d2, s2, f1, f2, f3⟩ := fwrite_many (L := L) g2 (areStrs_ext g1 hx) g4 ⟨.inl (by rw [g6]; exact hk), by rw [g7]; decide⟩ he
    obtain ⟨d3, c1, c2, c3, c4⟩ := c60_fclose (L := L) (h := h1) g2 f2.isOpen (by rw [f2.file]; exact f2.there (by rw [g5, g11]; simp))
    have ht : OnlyTouches a (cut n) d d3 := (g12.trans (g5 ▸ f2.only)).trans ((f2.file.trans g5) ▸ c4)
    refine ⟨rs, d2, d3, f1, c1, ?_, ht.files, ?_⟩
    · rw [← g5, ← f2.file, c2, f3, g10, f2.file, g5]
    · funext b
      by_cases hb : b = a
      · rw [hb, c3, g3]
      · exact ht.streams b hb

theorem pieces_flatten : ∀ (ks : List Nat) (c : List UInt8), (pieces c ks).flatten = c.take ks.sum
  | [], c => by simp [pieces]
  | k :: ks, c => by
    rw [pieces, List.flatten_cons, pieces_flatten ks, List.sum_cons]
    rw [List.take_add]

theorem fread_many {L : FileEnv} {v : Value} {a : Nat} : ∀ {ks : List Nat} {h : Heap} {d : Disk} {s : Stream}, HandleAt h v a →
    (∀ o ∈ h.list, o < h.next) → d.streams a = some s → MayRead s → (∀ k ∈ ks, k < 2 ^ 31 - 1) →
    ∃ rs d' h' s', fileCalls L .fread v (ks.map fun k : Nat => intVal k) d h = .ok (rs, d', h') ∧ Extends h h' ∧ SameStream a d s d' s' ∧
      AreStrs L.cmem h' rs (pieces ((content d s).drop (position d s)) ks) ∧ d'.files = d.files
  | [], h, d, s, _, hf, hs, _, _ => ⟨[], d, h, s, rfl, Tiny.Extends.refl hf, .refl hs, trivial, rfl⟩
  | k :: ks, h, d, s, hv, hf, hs, hr, hk => by
    obtain ⟨o, d1, h1, s1, e1, e2, _, e3, e4, e5, e6, e7, e8⟩ := c60_fread (L := L) hf hv hs hr (hk k (by simp))
    obtain ⟨rs, d2, h2, s2, g1, g2, g3, g4, g5⟩ := fread_many (ks := ks) (handle_ext e2 hv) e2.fresh e4.isOpen e5 (fun k hm => hk k (by simp [hm]))
    refine ⟨.str o :: rs, d2, h2, s2, ?_, Tiny.Extends.trans e2 g2, e4.trans g3, ⟨isStr_ext g2 e3, ?_⟩, g5.trans e8⟩
    · rw [List.map_cons, fileCalls, e1, Res.bind_ok]
      show (fileCalls L .fread v _ d1 h1 >>= _) = _
      rw [g1]; rfl
    · have hd : (content d1 s1).drop (position d1 s1) = ((content d s).drop (position d s)).drop k := by
        rw [e6, e7, List.drop_drop]
        by_cases hl : position d s + k ≤ max (position d s) (content d s).length
        · rw [Nat.min_eq_left hl]
        · rw [List.drop_of_length_le (by omega), List.drop_of_length_le (by omega)]
      rw [← hd]; exact g4

/-- **C60.** A file which is opened for reading and read in pieces gives its bytes in order, each once: the texts read are the
consecutive pieces of its content, of the lengths asked for. No file has changed. -/
theorem c60_read_pieces {L : FileEnv} (hL : NewStreams L) {d d1 : Disk} {h h1 : Heap} (hf : ∀ o ∈ h.list, o < h.next) {nv mv v : Value}
    {n m : List UInt8} (hn : IsStr L.cmem h nv n) (hm : IsStr L.cmem h mv m) {mode : OpenMode} (hmode : IsMode (cut m) mode)
    (hk : mode.kind = .read) (ho : fileCall L .fopen [nv, mv] d h = .ok (v, d1, h1)) (hv : v ≠ .null) {ks : List Nat}
    (hks : ∀ k ∈ ks, k < 2 ^ 31 - 1) :
    ∃ c rs d2 h2, d.files (cut n) = some c ∧ fileCalls L .fread v (ks.map fun k : Nat => intVal k) d1 h1 = .ok (rs, d2, h2) ∧
      AreStrs L.cmem h2 rs (pieces c ks) ∧ (pieces c ks).flatten = c.take ks.sum ∧ d2.files = d.files := by
  rcases c60_fopen hL (d := d) hf hn hm hmode with ⟨e, _⟩ | ⟨w, d', h', a, s, e, g1, g2, g3, g4, g5, g6, g7, g8, g9, g10, g11, g12⟩
  · rw [ho] at e
    simp only [Res.ok.injEq, Prod.mk.injEq] at e
    exact absurd e.1 hv
  · rw [ho] at e
    simp only [Res.ok.injEq, Prod.mk.injEq] at e
    obtain ⟨rfl, rfl, rfl⟩ := e
    obtain ⟨rs, d2, h2, s2, f1, f2, f3, f4, f5⟩ := fread_many (L := L) (ks := ks) g2 g1.fresh g4 ⟨.inl (by rw [g6]; exact hk), by rw [g7]; decide, g8⟩ hks
    rw [g9, List.drop_zero] at f4
    have hsome : d.files (cut n) = some (content d1 s) := by
      cases hc : d.files (cut n) with
      | some c => rw [g10, hc, hk]; rfl
      | none =>
        exfalso
        have key : fileCall L .fopen [nv, mv] d h = .ok (.null, d, h) := by
          show libFopen L [nv, mv] d h = _
          rw [libFopen, toCStr_of hn, Res.bind_ok, toCStr_of hm, Res.bind_ok, cText_cut, cText_cut, fopen, mode_lookup hmode]
          show ((if mode.kind = .read ∧ d.files (cut n) = none then Res.ok (none, d) else _) >>= _) = _
          rw [if_pos ⟨hk, hc⟩]; rfl
        rw [ho] at key
        simp only [Res.ok.injEq, Prod.mk.injEq] at key
        exact hv key.1
    refine ⟨content d1 s, rs, d2, h2, hsome, f1, f4, pieces_flatten _ _, ?_⟩
    rw [f5]
    funext m
    by_cases hm2 : m = cut n
    · rw [hm2, g11, hsome]
    · exact g12.files m hm2

/-! ## Other files and streams -/

theorem res_bind_inv {α β : Type} {x : Res α} {f : α → Res β} {b : β} (h : (x >>= f) = .ok b) : ∃ a, x = .ok a ∧ f a = .ok b := by
  cases x with
  | ok a => exact ⟨a, rfl, h⟩
  | _ => cases h

theorem stream_inv {d : Disk} {a : Nat} {s : Stream} (h : d.stream a = .ok s) : d.streams a = some s := by
  rw [Disk.stream] at h
  split at h
  · rename_i x hx; cases h; exact hx
  · cases h

theorem fseek_inv {d d' : Disk} {a : Nat} {b : Bool} {k : Int} (h : fseek d a b k = .ok d') :
    ∃ s s', d.streams a = some s ∧ SameStream a d s d' s' := by
  obtain ⟨s, h1, _⟩ := res_bind_inv h
  obtain ⟨d1, s1, e, hs, _⟩ := fseek_of (stream_inv h1) b k
  rw [h] at e; cases e
  exact ⟨s, s1, stream_inv h1, hs⟩

theorem fread_inv {d d' : Disk} {a k : Nat} {x : List UInt8} (h : fread d a k = .ok (x, d')) :
    d'.files = d.files ∧ ∀ b, b ≠ a → d'.streams b = d.streams b := by
  obtain ⟨s, h1, h2⟩ := res_bind_inv h
  split at h2
  · cases h2; exact ⟨rfl, fun _ _ => rfl⟩
  · split at h2
    · cases h2
    · cases h2; exact ⟨rfl, fun b hb => by simp [Disk.setStream, hb]⟩

theorem fwrite_inv {L : FileEnv} {d d' : Disk} {a k : Nat} {x : List UInt8} (h : fwrite L d a x = .ok (k, d')) :
    ∃ s s', d.streams a = some s ∧ SameStream a d s d' s' := by
  obtain ⟨s, h1, h2⟩ := res_bind_inv h
  have hs := stream_inv h1
  by_cases hr : s.mode.kind = .read ∧ s.mode.both = false
  · rw [if_pos hr] at h2
    cases h2; exact ⟨s, s, hs, .refl hs⟩
  · rw [if_neg hr] at h2
    by_cases hl : s.last = .reading
    · rw [if_pos hl] at h2; cases h2
    · obtain ⟨d1, s1, e, hss, _⟩ := fwrite_of (L := L) hs (by
        by_cases hk : s.mode.kind = .read
        · right; cases hb : s.mode.both with
          | true => rfl
          | false => exact absurd ⟨hk, hb⟩ hr
        · exact .inl hk) hl x
      rw [h] at e
      cases e
      exact ⟨s, s1, hs, hss⟩

theorem fclose_inv {d d' : Disk} {a : Nat} (h : fclose d a = .ok d') : ∃ s, d.streams a = some s ∧ OnlyTouches a s.file d d' ∧ d'.streams a = none := by
  obtain ⟨s, h1, h2⟩ := res_bind_inv h
  have hs := stream_inv h1
  cases hf : d.flush s s.pending.length with
  | mk d1 s1 =>
    rw [hf] at h2
    cases h2
    obtain ⟨_, _, _, h4, _, h6, h7, h8⟩ := flush_all d s hf
    exact ⟨s, hs, ⟨h7, fun b hb => by simp [Disk.setStream, hb, h6]⟩, by simp [Disk.setStream]⟩

theorem fopen_inv {L : FileEnv} (hL : NewStreams L) {d d' : Disk} {n m : List UInt8} {f : Option Nat} (h : fopen L d n m = .ok (f, d')) :
    (f = none ∧ d' = d) ∨ ∃ a, f = some a ∧ d.streams a = none ∧ OnlyTouches a n d d' := by
  cases hm : openModes.lookup m with
  | none => rw [fopen, hm] at h; cases h
  | some mode =>
    rcases fopen_of hL (n := n) (d := d) hm with ⟨e, _⟩ | ⟨a, d1, s, e, _, h1, h2, _, h3, h4, h5, h6, h7, h8, h9, h10, h11, h12⟩
    · rw [h] at e; cases e; exact .inl ⟨rfl, rfl⟩
    · rw [h] at e; cases e; exact .inr ⟨a, rfl, h1, h12⟩

theorem toCStr_inv {L : FileEnv} {h : Heap} {v : Value} {m : List UInt8} (e : toCStr L h v = .ok m) : ∃ b, IsStr L.cmem h v b ∧ cText m = cut b := by
  obtain ⟨x, h1, h2⟩ := res_bind_inv e
  cases v with
  | cstr p =>
    simp only [toStr, Res.ok.injEq] at h1
    subst h1; cases h2
    exact ⟨_, rfl, cText_cut _⟩
  | str o =>
    obtain ⟨y, g1, g2⟩ := res_bind_inv h1
    rw [Heap.deref] at g1
    split at g1
    · rename_i hm
      cases g1
      cases ho : h.obj o with
      | str b =>
        rw [ho] at g2; cases g2; cases h2
        exact ⟨b, ⟨hm, ho⟩, cText_cut _⟩
      | _ => rw [ho] at g2; cases g2
    · cases g1
  | _ => simp only [toStr, Res.ok.injEq] at h1; subst h1; cases h2

theorem fileAt_inv {h : Heap} {v : Value} {a : Nat} (e : fileAt h v = .ok a) : AddressOf h v a := by
  obtain ⟨x, h1, h2⟩ := res_bind_inv e
  cases h2
  cases v with
  | native o =>
    obtain ⟨y, g1, g2⟩ := res_bind_inv h1
    rw [Heap.deref] at g1
    split at g1
    · cases g1
      cases ho : h.obj o with
      | native b p => rw [ho] at g2; cases g2; exact ⟨b, p, ho, by simp⟩
      | _ => rw [ho] at g2; cases g2
    · cases g1
  | light p => simp only [toAddr, Res.ok.injEq] at h1; subst h1; simp [AddressOf]
  | _ => simp only [toAddr, Res.ok.injEq] at h1; subst h1; rfl

theorem slurp_inv {d d' : Disk} {a n : Nat} {buf : List (Option UInt8)} (h : slurp d a = .ok (buf, n, d')) :
    ∃ s, d.streams a = some s ∧ OnlyTouches a s.file d d' ∧ d'.streams a = none := by
  obtain ⟨d1, h1, h⟩ := res_bind_inv h
  obtain ⟨k, h2, h⟩ := res_bind_inv h
  obtain ⟨d2, h3, h⟩ := res_bind_inv h
  obtain ⟨⟨x, d3⟩, h4, h⟩ := res_bind_inv h
  obtain ⟨b1, h5, h⟩ := res_bind_inv h
  obtain ⟨b2, h6, h⟩ := res_bind_inv h
  obtain ⟨d4, h7, h⟩ := res_bind_inv h
  cases h
  obtain ⟨s, s1, e1, e2⟩ := fseek_inv h1
  obtain ⟨t, s2, e3, e4⟩ := fseek_inv h3
  rw [e2.isOpen] at e3; cases e3
  obtain ⟨s3, e5, e6, e7⟩ := fclose_inv h7
  obtain ⟨f1, f2⟩ := fread_inv h4
  have hfile : s3.file = s.file := by
    obtain ⟨y, g1, g2⟩ := res_bind_inv h4
    have hy := stream_inv g1
    rw [e4.isOpen] at hy; cases hy
    have : s3.file = s2.file := by
      split at g2
      · cases g2; rw [e4.isOpen] at e5; cases e5; rfl
      · split at g2
        · cases g2
        · cases g2
          simp only [Disk.setStream, if_true, Option.some.injEq] at e5
          rw [← e5]
    rw [this, e4.file, e2.file]
  have o2 : OnlyTouches a s.file d d2 := (e2.trans e4).only
  have o3 : OnlyTouches a s.file d d3 := ⟨fun m hm => by rw [f1, o2.files m hm], fun b hb => by rw [f2 b hb, o2.streams b hb]⟩
  exact ⟨s, e1, o3.trans (hfile ▸ e6), e7⟩

/-- **C60.** A call of any of the eight functions, whatever its arguments are, changes no file but that of the name or of the stream
given - `fread` and `read_file` change none -, and no open stream but that given. -/
theorem c60_others {L : FileEnv} (hL : NewStreams L) {fn : FileFn} {args : List Value} {d d' : Disk} {h h' : Heap} {r : Value}
    (hc : fileCall L fn args d h = .ok (r, d', h')) :
    (∀ n, ¬ MayChange L d h fn args n → d'.files n = d.files n) ∧
    (∀ b s, d.streams b = some s → ¬ MayMove h fn args b → d'.streams b = some s) := by
  have two : ∀ {v : Value} {a : Nat} {s : Stream} {P : List UInt8 → Prop} {Q : Nat → Prop}, fileAt h v = .ok a → d.streams a = some s →
      OnlyTouches a s.file d d' → (∀ n, (∃ a s, AddressOf h v a ∧ d.streams a = some s ∧ s.file = n) → P n) → (∀ b, AddressOf h v b → Q b) →
      (∀ n, ¬ P n → d'.files n = d.files n) ∧ (∀ b s, d.streams b = some s → ¬ Q b → d'.streams b = some s) := by
    intro v a s P Q e1 e2 e3 hP hQ
    refine ⟨fun n hn => e3.files n ?_, fun b t hb hq => ?_⟩
    · rintro rfl; exact hn (hP _ ⟨a, s, fileAt_inv e1, e2, rfl⟩)
    · rw [e3.streams b ?_, hb]
      rintro rfl; exact hq (hQ _ (fileAt_inv e1))
  cases fn with
  | fopen =>
    match args, hc with
    | [], hc => cases hc
    | [_], hc => cases hc
    | nv :: mv :: rest, hc =>
      obtain ⟨n, h1, hc⟩ := res_bind_inv hc
      obtain ⟨m, h2, hc⟩ := res_bind_inv hc
      obtain ⟨⟨f, d1⟩, h3, hx⟩ := res_bind_inv hc
      obtain ⟨b, hb, hcut⟩ := toCStr_inv h1
      rw [hcut] at h3
      rcases fopen_inv hL h3 with ⟨hn, hd⟩ | ⟨a, ha, e1, e2⟩
      · subst hn; cases hx; subst hd
        exact ⟨fun _ _ => rfl, fun _ _ h _ => h⟩
      · subst ha; cases hx
        refine ⟨fun n hn => e2.files n ?_, fun c s hs _ => ?_⟩
        · rintro rfl; exact hn ⟨b, hb, rfl⟩
        · rw [e2.streams c ?_, hs]
          rintro rfl; rw [e1] at hs; cases hs
  | fclose =>
    match args, hc with
    | [], hc => cases hc
    | v :: rest, hc =>
      obtain ⟨a, h1, hc⟩ := res_bind_inv hc
      obtain ⟨d1, h2, hc⟩ := res_bind_inv hc
      cases hc
      obtain ⟨s, e1, e2, _⟩ := fclose_inv h2
      exact two h1 e1 e2 (fun n h => h) (fun b h => h)
  | fread =>
    match args, hc with
    | [], hc => cases hc
    | [_], hc => cases hc
    | v :: k :: rest, hc =>
      obtain ⟨a, h1, hc⟩ := res_bind_inv hc
      obtain ⟨k, h2, hc⟩ := res_bind_inv hc
      split at hc
      · cases hc
      · obtain ⟨⟨x, d1⟩, h3, hc⟩ := res_bind_inv hc
        obtain ⟨b1, h4, hc⟩ := res_bind_inv hc
        obtain ⟨b2, h5, hc⟩ := res_bind_inv hc
        obtain ⟨⟨q, h''⟩, h6, hc⟩ := res_bind_inv hc
        cases hc
        obtain ⟨e1, e2⟩ := fread_inv h3
        refine ⟨fun n _ => by rw [e1], fun b s hs hb => ?_⟩
        rw [e2 b ?_, hs]
        rintro rfl; exact hb (fileAt_inv h1)
  | fwrite =>
    match args, hc with
    | [], hc => cases hc
    | [_], hc => cases hc
    | v :: sv :: rest, hc =>
      obtain ⟨a, h1, hc⟩ := res_bind_inv hc
      obtain ⟨m, h2, hc⟩ := res_bind_inv hc
      obtain ⟨k, hc⟩ : ∃ k : Int, (if k < 0 ∨ (m.length : Int) < k then Res.ub else
          (fwrite L d a (m.take k.toNat) >>= fun p => .ok (newInt p.1, p.2, h))) = .ok (r, d', h') := by
        match rest, hc with
        | [k], hc => obtain ⟨j, _, hc⟩ := res_bind_inv hc; exact ⟨j, hc⟩
        | [], hc => exact ⟨_, hc⟩
        | _ :: _ :: _, hc => exact ⟨_, hc⟩
      split at hc
      · cases hc
      · obtain ⟨⟨j, d1⟩, h4, hc⟩ := res_bind_inv hc
        cases hc
        obtain ⟨s, s', e1, e2⟩ := fwrite_inv h4
        exact two h1 e1 e2.only (fun n h => h) (fun b h => h)
  | fseek =>
    match args, hc with
    | [], hc => cases hc
    | [_], hc => cases hc
    | v :: k :: rest, hc =>
      obtain ⟨a, h1, hc⟩ := res_bind_inv hc
      obtain ⟨k, h2, hc⟩ := res_bind_inv hc
      obtain ⟨d1, h3, hc⟩ := res_bind_inv hc
      cases hc
      obtain ⟨s, s', e1, e2⟩ := fseek_inv h3
      exact two h1 e1 e2.only (fun n h => h) (fun b h => h)
  | fsize =>
    match args, hc with
    | [], hc => cases hc
    | v :: rest, hc =>
      obtain ⟨a, h1, hc⟩ := res_bind_inv hc
      obtain ⟨d1, h2, hc⟩ := res_bind_inv hc
      obtain ⟨k, h3, hc⟩ := res_bind_inv hc
      obtain ⟨d2, h4, hc⟩ := res_bind_inv hc
      cases hc
      obtain ⟨s, s', e1, e2⟩ := fseek_inv h2
      obtain ⟨t, s'', e3, e4⟩ := fseek_inv h4
      rw [e2.isOpen] at e3; cases e3
      exact two h1 e1 (e2.trans e4).only (fun n h => h) (fun b h => h)
  | readFile =>
    match args, hc with
    | [], hc => cases hc
    | nv :: rest, hc =>
      obtain ⟨n, h1, hc⟩ := res_bind_inv hc
      obtain ⟨⟨f, d1⟩, h3, hc⟩ := res_bind_inv hc
      rcases open_slurp hL (d := d) (cText n) with ⟨e, _⟩ | ⟨a, d2, c, q, e1, _, e3⟩
      · rw [h3] at e; cases e; cases hc
        exact ⟨fun _ _ => rfl, fun _ _ h _ => h⟩
      · rw [h3] at e1; cases e1
        obtain ⟨⟨x, y, z⟩, h4, hc⟩ := res_bind_inv hc
        rw [e3] at h4; cases h4
        obtain ⟨⟨q, h''⟩, h6, hc⟩ := res_bind_inv hc
        cases hc
        exact ⟨fun _ _ => rfl, fun _ _ h _ => h⟩
  | writeFile =>
    match args, hc with
    | [], hc => cases hc
    | [_], hc => cases hc
    | nv :: sv :: rest, hc =>
      obtain ⟨n, h1, hc⟩ := res_bind_inv hc
      obtain ⟨⟨f, d1⟩, h3, hc⟩ := res_bind_inv hc
      obtain ⟨b, hb, hcut⟩ := toCStr_inv h1
      rw [hcut] at h3
      rcases fopen_of hL (n := cut b) (d := d) writes_w with ⟨e, hw⟩ | ⟨a, d', s, e, _, g1, _, g2, g3, g4, g5, g6, g7, g8, g9, g10, g11, g12⟩
      · rw [h3] at e; cases e; cases hc
        exact ⟨fun _ _ => rfl, fun _ _ h _ => h⟩
      · rw [h3] at e; cases e
        obtain ⟨m, h4, hc⟩ := res_bind_inv hc
        obtain ⟨⟨k, d2⟩, h5, hc⟩ := res_bind_inv hc
        obtain ⟨d3, h6, hc⟩ := res_bind_inv hc
        cases hc
        obtain ⟨t, t', e1, e2⟩ := fwrite_inv h5
        rw [g3] at e1; cases e1
        obtain ⟨u, e3, e4, _⟩ := fclose_inv h6
        rw [e2.isOpen] at e3; cases e3
        have ht := (g12.trans (g4 ▸ e2.only)).trans ((e2.file.trans g4) ▸ e4)
        refine ⟨fun n hn => ht.files n ?_, fun c s hs _ => ?_⟩
        · rintro rfl; exact hn ⟨b, hb, rfl⟩
        · rw [ht.streams c ?_, hs]
          rintro rfl; rw [g1] at hs; cases hs

end Tiny
