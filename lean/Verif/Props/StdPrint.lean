import Verif.Proofs.StdPrint
import Mathlib.Logic.Relation

/-!
# C55: `printf` and `input`
-/

namespace Tiny
open Spec Tiny.Std

theorem printfLoop_nil (E : PrintEnv) (h : Heap) (vs : List Value) (r : List UInt8) : printfLoop E h (0 :: r) vs = .ok [] := by
  rw [printfLoop.eq_def]; rfl

theorem printfLoop_dir (E : PrintEnv) (h : Heap) (d : UInt8) (r : List UInt8) (v : Value) (vs : List Value) :
    printfLoop E h (b! '%' :: d :: r) (v :: vs) = (do
      let a ← directive E h d v
      let s ← printfLoop E h r vs
      .ok (a ++ s)) := by
  rw [printfLoop.eq_def]; rfl

theorem printfLoop_few (E : PrintEnv) (h : Heap) (r : List UInt8) : printfLoop E h (b! '%' :: r) [] = .abort := by
  rw [printfLoop.eq_def]
  cases r <;> rfl

theorem printf_fmt {E : PrintEnv} {h : Heap} {v : Value} {s : List UInt8} (hv : IsStr E.cmem h v s) (vs : List Value) :
    printf E (v :: vs) h = (do
      let out ← printfLoop E h (s ++ [0]) vs
      .ok (.null, out)) := by
  simp only [printf]
  rw [toStr_of hv, Res.bind_ok]

/-- **C55.** `printf(format, ...)` writes the text of the format as it is, and for each directive its argument, in order;
its result is null. (In Lean it is a function of the memory which gives no new memory: it changes nothing.) -/
theorem c55_printf {E : PrintEnv} {h : Heap} {v : Value} {ps : List FormatPart} (hv : IsStr E.cmem h v (formatText ps))
    (hp : ∀ p ∈ ps, GoodPart p) {args : List Value} {out : List UInt8} (ho : Prints E h ps args out) :
    printf E (v :: args) h = .ok (.null, out) := by
  have key : printfLoop E h (formatText ps ++ [0]) args = .ok out := by
    clear hv
    induction ho with
    | done => exact printfLoop_nil E h _ []
    | @text b ps vs out _ ih =>
      have hb : ∀ c ∈ b, c ≠ 0 ∧ c ≠ b! '%' := hp (.text b) (by simp)
      rw [formatText, List.append_assoc, printfLoop_text E h _ vs b hb, ih fun p h => hp p (by simp [h]), Res.bind_ok]
    | @dir d v t ps vs out hf _ ih =>
      show printfLoop E h (b! '%' :: d.letter :: (formatText ps ++ [0])) (v :: vs) = _
      rw [printfLoop_dir, directive_fills hf (hp _ (by simp)), Res.bind_ok, ih fun p h => hp p (by simp [h]), Res.bind_ok]
  rw [printf_fmt hv, key, Res.bind_ok]

/-- **C55.** With fewer arguments than directives, `printf` ends the process. -/
theorem c55_too_few {E : PrintEnv} {h : Heap} {v : Value} {ps : List FormatPart} (hv : IsStr E.cmem h v (formatText ps))
    (hp : ∀ p ∈ ps, GoodPart p) {args : List Value} (ho : TooFew E h ps args) : printf E (v :: args) h = .abort := by
  have key : printfLoop E h (formatText ps ++ [0]) args = .abort := by
    clear hv
    induction ho with
    | here => exact printfLoop_few E h _
    | @text b ps vs _ ih =>
      have hb : ∀ c ∈ b, c ≠ 0 ∧ c ≠ b! '%' := hp (.text b) (by simp)
      rw [formatText, List.append_assoc, printfLoop_text E h _ vs b hb, ih fun p h => hp p (by simp [h])]; rfl
    | @dir d v t ps vs hf _ ih =>
      show printfLoop E h (b! '%' :: d.letter :: (formatText ps ++ [0])) (v :: vs) = _
      rw [printfLoop_dir, directive_fills hf (hp _ (by simp)), Res.bind_ok, ih fun p h => hp p (by simp [h])]; rfl
  rw [printf_fmt hv, key]; rfl

/-- Which directive a letter is. -/
def directiveOf (c : UInt8) : Directive :=
  if c = b! 'i' then .int else if c = b! 'f' then .float else if c = b! 's' then .str else if c = b! 'c' then .char
  else if c = b! 'q' then .quote else .other c

theorem directiveOf_letter (c : UInt8) (hc : c ≠ 0) : (directiveOf c).letter = c ∧ GoodPart (.dir (directiveOf c)) := by
  unfold directiveOf
  repeat' split
  all_goals rename_i h; first | exact ⟨h.symm, trivial⟩ | skip
  rename_i h1 h2 h3 h4
  refine ⟨rfl, ?_, hc⟩
  intro hm
  have : c = b! 'i' ∨ c = b! 'f' ∨ c = b! 's' ∨ c = b! 'c' ∨ c = b! 'q' := by simpa [bytes] using hm
  rcases this with h | h | h | h | h <;> contradiction

/-- **C55.** Every text (without NUL) is a format, except that `%` may be its last character. -/
theorem c55_format : ∀ s : List UInt8, 0 ∉ s → ∃ ps, (∀ p ∈ ps, GoodPart p) ∧ (s = formatText ps ∨ s = formatText ps ++ bytes "%")
  | [], _ => ⟨[], by simp, .inl rfl⟩
  | [c], h => by
    by_cases hc : c = b! '%'
    · exact ⟨[], by simp, .inr (by rw [hc]; rfl)⟩
    · refine ⟨[.text [c]], ?_, .inl rfl⟩
      intro p hp
      cases List.mem_singleton.1 hp
      intro x hx
      cases List.mem_singleton.1 hx
      exact ⟨fun e => h (by simp [e]), hc⟩
  | c :: d :: s, h => by
    by_cases hc : c = b! '%'
    · obtain ⟨ps, h1, h2⟩ := c55_format s fun hm => h (by simp [hm])
      obtain ⟨g1, g2⟩ := directiveOf_letter d fun e => h (by simp [e])
      refine ⟨.dir (directiveOf d) :: ps, ?_, ?_⟩
      · intro p hp
        rcases List.mem_cons.1 hp with rfl | hp
        · exact g2
        · exact h1 p hp
      · simp only [formatText, g1, hc]
        rcases h2 with h2 | h2
        · exact .inl (by rw [h2])
        · exact .inr (by rw [h2]; simp)
    · obtain ⟨ps, h1, h2⟩ := c55_format (d :: s) fun hm => h (by simp [List.mem_cons.1 hm])
      refine ⟨.text [c] :: ps, ?_, ?_⟩
      · intro p hp
        rcases List.mem_cons.1 hp with rfl | hp
        · intro x hx
          cases List.mem_singleton.1 hx
          exact ⟨fun e => h (by simp [e]), hc⟩
        · exact h1 p hp
      · rcases h2 with h2 | h2
        · exact .inl (by rw [h2]; rfl)
        · exact .inr (by rw [h2]; rfl)

/-- **C55, defect.** If the format ends with `%` and there is an argument for it, `printf` reads behind the end of the format. -/
theorem c55_trailing {E : PrintEnv} {h : Heap} {v : Value} {ps : List FormatPart} (hv : IsStr E.cmem h v (formatText ps ++ bytes "%"))
    (hp : ∀ p ∈ ps, GoodPart p) {args : List Value} {out : List UInt8} (ho : Prints E h ps args out)
    (hn : (ps.filter fun p => match p with | .dir _ => true | _ => false).length < args.length) : printf E (v :: args) h = .ub := by
  have key : printfLoop E h (formatText ps ++ (bytes "%" ++ [0])) args = .ub := by
    clear hv
    induction ho with
    | @done vs =>
      cases vs with
      | nil => simp at hn
      | cons v vs =>
        show printfLoop E h (b! '%' :: 0 :: []) (v :: vs) = _
        rw [printfLoop_dir]
        rfl
    | @text b ps vs out _ ih =>
      have hb : ∀ c ∈ b, c ≠ 0 ∧ c ≠ b! '%' := hp (.text b) (by simp)
      rw [formatText, List.append_assoc, printfLoop_text E h _ vs b hb, ih (fun p h => hp p (by simp [h])) (by simpa using hn)]; rfl
    | @dir d v t ps vs out hf _ ih =>
      show printfLoop E h (b! '%' :: d.letter :: (formatText ps ++ (bytes "%" ++ [0]))) (v :: vs) = _
      rw [printfLoop_dir, directive_fills hf (hp _ (by simp)), Res.bind_ok, ih (fun p h => hp p (by simp [h])) (by simpa using hn)]; rfl
  rw [printf_fmt hv, List.append_assoc, key]; rfl

/-- **C55.** A value is shown in one way. -/
theorem c55_shown_once {E : PrintEnv} {h : Heap} {v : Value} {s t : List UInt8} (hs : Shows E h v s) (ht : Shows E h v t) : s = t := by
  have := (print_shows hs).symm.trans (print_shows ht)
  cases this
  rfl

/-- The elements of arrays and the fields of structs. -/
def Inside (h : Heap) (o p : Nat) : Prop :=
  ∃ v : Value, v.objId? = some p ∧ ((∃ a, h.obj o = .native a arrayProp ∧ v ∈ h.natRefs a arrayProp) ∨ ∃ fs, h.obj o = .struct fs ∧ v ∈ fs)

theorem inside_points {h : Heap} {o p : Nat} : Inside h o p ↔ PointsTo (shownHeap h) o p := by
  unfold Inside PointsTo Heap.children shownHeap
  cases hb : h.obj o with
  | str b => simp
  | struct fs =>
    simp only [reduceCtorEq, false_and, exists_false, false_or, Obj.struct.injEq, exists_eq_left']
    exact ⟨fun ⟨v, h1, h2⟩ => ⟨v, h2, h1⟩, fun ⟨v, h1, h2⟩ => ⟨v, h2, h1⟩⟩
  | native a q =>
    by_cases hq : q = arrayProp
    · subst hq
      simp only [if_true, reduceCtorEq, false_and, exists_false, or_false, Obj.native.injEq, and_true, exists_eq_left']
      exact ⟨fun ⟨v, h1, h2⟩ => ⟨v, h2, h1⟩, fun ⟨v, h1, h2⟩ => ⟨v, h2, h1⟩⟩
    · simp [hq]

/-- **C55.** If no array or struct in reach of `v` contains itself, however deep, showing `v` ends; **defect**: otherwise it never
does (in C: the stack overflows). -/
theorem c55_cycle {E : PrintEnv} {h : Heap} {o : Nat} {v : Value} (ho : v.objId? = some o) :
    (Relation.TransGen (Inside h) o o → ∀ fuel t, print E h fuel true v ≠ .ok t) ∧
    ((∀ p, Relation.ReflTransGen (Inside h) o p → ¬ Relation.TransGen (Inside h) p p) →
      print E h (h.list.length + 1) true v ≠ .timeout) := by
  have htrans : ∀ {a b}, Relation.TransGen (Inside h) a b → Reach (shownHeap h) ((shownHeap h).children a) b := by
    intro a b r
    induction r with
    | single s => obtain ⟨v, h1, h2⟩ := inside_points.1 s; exact .root h1 h2
    | tail _ s ih => exact .step ih (inside_points.1 s)
  have hback : ∀ {a b}, Reach (shownHeap h) ((shownHeap h).children a) b → Relation.TransGen (Inside h) a b := by
    intro a b r
    induction r with
    | root h1 h2 => exact .single (inside_points.2 ⟨_, h1, h2⟩)
    | step _ s ih => exact .tail ih (inside_points.2 s)
  refine ⟨fun hc fuel t e => ?_, fun hn e => ?_⟩
  · exact print_no_cycle E h fuel _ t e ⟨o, .root (List.mem_singleton.2 rfl) ho, htrans hc⟩
  · obtain ⟨p, hp, hq⟩ := print_timeout E h _ _ e
    have hc : ReachableCycle (shownHeap h) [v] := path_dup_cycle p _ hq fun hd => by
      have := nodup_length_le p h.list hd (path_mem_list (h := shownHeap h) p _ hq)
      omega
    obtain ⟨x, h1, h2⟩ := hc
    obtain ⟨o', h3, h4⟩ := reach_first h1
    rw [ho] at h3; cases h3
    rcases h4 with rfl | h4
    · exact hn _ .refl (hback h2)
    · exact hn x (hback h4).to_reflTransGen (hback h2)

theorem inputLoop_line : ∀ (line rest : List UInt8), b! '\n' ∉ line → inputLoop (line ++ b! '\n' :: rest) = .ok (line, rest)
  | [], rest, _ => rfl
  | c :: line, rest, h => by
    rw [List.cons_append, inputLoop, if_neg fun e => h (by simp [e]), inputLoop_line line rest fun hm => h (by simp [hm])]
    rfl

theorem inputLoop_eof : ∀ line : List UInt8, b! '\n' ∉ line → inputLoop line = .timeout
  | [], _ => rfl
  | c :: line, h => by
    rw [inputLoop, if_neg fun e => h (by simp [e]), inputLoop_eof line fun hm => h (by simp [hm])]
    rfl

/-- **C55.** `input(prompt)` writes the prompt and gives the next line of the input as a new string, without its newline;
the rest of the input is what follows. -/
theorem c55_input {E : PrintEnv} {h : Heap} (hf : ∀ o ∈ h.list, o < h.next) {v : Value} {prompt : List UInt8} (hv : IsStr E.cmem h v prompt)
    {line rest : List UInt8} (hl : b! '\n' ∉ line) :
    ∃ o h', input E [v] (line ++ b! '\n' :: rest) h = .ok (.str o, h', prompt.takeWhile (· ≠ 0), rest) ∧
      IsStr E.cmem h' (.str o) line ∧ Extends h h' := by
  obtain ⟨o, h', h1, h2, h3, _⟩ := newString_of hf (l := line) (r := []) (cmem := E.cmem)
  refine ⟨o, h', ?_, h2, h3⟩
  rw [List.append_nil] at h1
  have ht : (prompt ++ [0]).takeWhile (· ≠ 0) = prompt.takeWhile (· ≠ 0) := by
    rw [List.takeWhile_append]
    split
    · rename_i hl
      rw [(List.takeWhile_prefix (l := prompt) (fun x : UInt8 => decide (x ≠ 0))).eq_of_length hl]; simp
    · rfl
  simp only [input]
  rw [toStr_of hv, Res.bind_ok]
  simp only [Res.bind_ok, inputLoop_line line rest hl, h1, ht]

/-- **C55, defect.** If the input ends before the next newline, `input` never returns. -/
theorem c55_input_eof {E : PrintEnv} {h : Heap} {v : Value} {prompt : List UInt8} (hv : IsStr E.cmem h v prompt)
    {line : List UInt8} (hl : b! '\n' ∉ line) : input E [v] line h = .timeout := by
  simp only [input]
  rw [toStr_of hv, Res.bind_ok]
  simp only [Res.bind_ok, inputLoop_eof line hl, Res.bind_timeout]

/-! ## A memory -/

/-- Constants: a format and a string. Struct 1 has the fields 7 and array 0, which holds `"a"`, true and null; struct 2
contains itself. -/
def printHeap : Heap where
  list := [2, 1, 0]
  next := 3
  numObjects := 3
  obj := fun o => match o with
    | 0 => .native 50 arrayProp
    | 1 => .struct [intVal (-7), .native 0]
    | _ => .struct [.struct 2]
  natRefs := fun a k => if a = 50 ∧ k = arrayProp then [.cstr 1, .bool true, .null] else []

/-- How this machine writes. -/
def printEnv : PrintEnv where
  cmem := fun p => match p with
    | 0 => bytes "x=%i %q%c"
    | 1 => bytes "a"
    | 2 => bytes "%%"
    | _ => bytes "%s %"
  fmtF := fun _ => bytes "0.5"
  fmtP := fun _ => bytes "0x32"
  propName := fun p => if p = arrayProp then some (bytes "array") else none

example : printf printEnv [.cstr 0, intVal 3, .struct 1, intVal 33] printHeap =
    .ok (.null, bytes "x=3 struct {-7, [\"a\", , <null>]}!") := by
  decide +kernel

/-- The hypotheses of `c55_printf` and `c55_too_few` are met. -/
example : IsStr printEnv.cmem printHeap (.cstr 0) (formatText [.text (bytes "x="), .dir .int, .text (bytes " "), .dir .quote, .dir .char]) ∧
    (∀ p ∈ [FormatPart.text (bytes "x="), .dir .int, .text (bytes " "), .dir .quote, .dir .char], GoodPart p) ∧
    Prints printEnv printHeap [.text (bytes "x="), .dir .int, .text (bytes " "), .dir .quote, .dir .char] [intVal 3, .struct 1, intVal 33]
      (bytes "x=" ++ (number 3 ++ (bytes " " ++ ((bytes "struct {" ++ commas [number (-7),
        bytes "[" ++ commas [bytes "\"" ++ bytes "a" ++ bytes "\"", [], bytes "<null>"] ++ bytes "]"] ++ bytes "}") ++ ([33] ++ []))))) ∧
    TooFew printEnv printHeap [.text (bytes "x="), .dir .int, .text (bytes " "), .dir .quote, .dir .char] [intVal 3] := by
  refine ⟨(by decide : _ = _), ?_, ?_, ?_⟩
  · intro p hp
    simp only [List.mem_cons, List.not_mem_nil, or_false] at hp
    rcases hp with rfl | rfl | rfl | rfl | rfl <;> first | trivial | (intro c hc; revert c; decide)
  · refine .text (.dir .int (.text (.dir (.quote (.struct (by decide) rfl rfl ?_)) (.dir (.char (c := 33)) .done))))
    intro k v t h1 h2
    rcases k with _ | _ | k
    · cases h1; cases h2; exact .int
    · cases h1; cases h2
      refine .array (a := 50) (by decide) rfl rfl ?_
      intro k v t h1 h2
      rcases k with _ | _ | _ | k
      · cases h1; cases h2; exact .string (s := bytes "a") (by decide : _ = _) (by decide)
      · cases h1; cases h2; exact .bool
      · cases h1; cases h2; exact .null
      · cases h1
    · cases h1
  · exact .text (.dir .int (.text .here))

/-- **C55, defects.** `%%` writes `%`, reports an invalid directive, and takes an argument; nothing is written for a bool. -/
theorem c55_percent : printf printEnv [.cstr 2] printHeap = .abort ∧
    printf printEnv [.cstr 2, .null] printHeap = .ok (.null, bytes "%\nInvalid format specifier '%'\n") ∧
    (∀ b, Shows printEnv printHeap (.bool b) []) :=
  ⟨by decide +kernel, by decide +kernel, fun _ => .bool⟩

/-- The hypotheses of `c55_trailing` and of both parts of `c55_cycle` are met. -/
example : IsStr printEnv.cmem printHeap (.cstr 3) (formatText [.dir .str, .text (bytes " ")] ++ bytes "%") ∧
    Prints printEnv printHeap [.dir .str, .text (bytes " ")] [.cstr 1, .null] (bytes "a" ++ (bytes " " ++ [])) ∧
    Relation.TransGen (Inside printHeap) 2 2 :=
  ⟨(by decide : _ = _), .dir (.str (s := bytes "a") (by decide : _ = _) (by decide)) (.text .done), .single ⟨.struct 2, rfl, .inr ⟨_, rfl, by simp⟩⟩⟩

example : input printEnv [.cstr 1] (bytes "one\ntwo\n") {} = .ok (.str 0, (newString {} ((bytes "one").map some) 3 |> fun
    | .ok (_, h) => h
    | _ => {}), bytes "a", bytes "two\n") := rfl

end Tiny
