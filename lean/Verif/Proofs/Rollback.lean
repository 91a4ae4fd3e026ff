import Verif.Proofs.ResolveKeep
import Verif.Proofs.CodeKeep
import Verif.Props.Parse

/-!
# What a compilation leaves alone: the phases
-/

namespace Tiny
open Spec

/-! ## Symbols -/

theorem kept_unmarked {x y : Sym} (h : Kept x y) : Kept (unmarked x) (unmarked y) := by
  cases h with
  | same => exact .same _
  | filled n fs more d => exact .filled n fs more d

theorem Kept.trans' {x y z : Sym} (h : Kept x y) (k : Kept y z) : Kept x z := by
  cases h with
  | same => exact k
  | filled n fs more d =>
    cases k with
    | same => exact .filled n fs more d
    | filled _ _ more' d' => rw [List.append_assoc]; exact .filled n fs (more ++ more') d'

theorem _root_.Tiny.Spec.Stays.same (x : Sym) : Stays x x := .kept (.same x)

theorem _root_.Tiny.Spec.Stays.trans {x y z : Sym} (h : Stays x y) (k : Stays y z) : Stays x z := by
  cases h with
  | «opaque» n fs =>
    cases k with
    | kept k => cases k; exact .opaque n fs
  | kept h =>
    cases k with
    | kept k => exact .kept (Kept.trans' h k)
    | «opaque» n fs =>
      cases h with
      | same => exact .opaque n fs
      | filled => exact .opaque ..

theorem kept_unmarked_trans {x y z : Sym} (h : Stays (unmarked x) (unmarked y)) (k : Stays (unmarked y) (unmarked z)) :
    Stays (unmarked x) (unmarked z) := h.trans k

theorem core_unmarkedVar (v : VarInfo) : (unmarkedVar v).core = v.core := rfl

theorem core_unmarked (x : Sym) : (unmarked x).core = x.core := by
  cases x <;> simp [unmarked, Sym.core, Function.comp_def, core_unmarkedVar]

theorem Kept.core {x y : Sym} (h : Kept x y) : y.core = x.core := by
  cases h <;> rfl

theorem _root_.Tiny.Spec.Stays.core {x y : Sym} (h : Stays x y) : y.core = x.core := by
  cases h with
  | kept h => exact Kept.core h
  | «opaque» => rfl

theorem kept_core {x y : Sym} (h : Stays (unmarked x) (unmarked y)) : y.core = x.core := by
  have := h.core
  rwa [core_unmarked, core_unmarked] at this

theorem funcIdx_core (x : Sym) : x.core.funcIdx = x.funcIdx := by cases x <;> rfl
theorem foreignIdx_core (x : Sym) : x.core.foreignIdx = x.foreignIdx := by cases x <;> rfl

theorem kept_func {fi : FuncInfo} {y : Sym} (h : Stays (unmarked (.func fi)) (unmarked y)) :
    ∃ fi', y = .func fi' ∧ fi'.index = fi.index := by
  have e := kept_core h
  have h2 := congrArg Sym.funcIdx e
  rw [funcIdx_core, funcIdx_core] at h2
  cases y <;> simp [Sym.funcIdx] at h2
  exact ⟨_, rfl, h2⟩

theorem kept_foreign {n : Name} {i : Nat} {ts : List Tag} {va : Bool} {r : Tag} {y : Sym}
    (h : Stays (unmarked (.foreign n i ts va r)) (unmarked y)) : y = .foreign n i ts va r := by
  replace h : Stays (.foreign n i ts va r) (unmarked y) := h
  generalize hz : unmarked y = z at h
  cases h with
  | kept h =>
    cases h
    cases y <;> simp only [unmarked] at hz <;> cases hz
    rfl

theorem getElem_of_mem {α : Type} {l : List α} {x : α} (h : x ∈ l) : ∃ i : Nat, l[i]? = some x := by
  obtain ⟨i, hi, e⟩ := List.mem_iff_getElem.1 h
  exact ⟨i, by rw [List.getElem?_eq_getElem hi, e]⟩

theorem mem_of_getElem {α : Type} {l : List α} {x : α} {i : Nat} (h : l[i]? = some x) : x ∈ l :=
  List.mem_of_getElem? h

theorem _root_.Tiny.Spec.Survives.refl (s : TState) : Survives s s :=
  ⟨fun _ x h => ⟨x, h, .same _⟩, List.prefix_refl _, Nat.le_refl _, Nat.le_refl _, Nat.le_refl _, fun _ _ => rfl,
    fun _ _ _ h => h, fun _ _ _ _ _ _ h => h, .refl _, rfl⟩

theorem _root_.Tiny.Spec.Survives.trans {s t u : TState} (a : Survives s t) (hs : s.program.length ≤ t.program.length) (b : Survives t u) :
    Survives s u where
  syms := fun i x h => by
    obtain ⟨y, h1, k1⟩ := a.syms i x h
    obtain ⟨z, h2, k2⟩ := b.syms i y h1
    exact ⟨z, h2, kept_unmarked_trans k1 k2⟩
  strings := a.strings.trans b.strings
  globals := Nat.le_trans a.globals b.globals
  functions := Nat.le_trans a.functions b.functions
  foreign := Nat.le_trans a.foreign b.foreign
  code := fun k hk => (b.code k (by omega)).trans (a.code k hk)
  entries := fun fi hf p hp => by
    obtain ⟨i, hi⟩ := getElem_of_mem hf
    obtain ⟨y, h1, k1⟩ := a.syms i _ hi
    obtain ⟨fi', rfl, e⟩ := kept_func k1
    have := a.entries fi hf p hp
    rw [← e] at this ⊢
    exact b.entries fi' (mem_of_getElem h1) p this
  bound := fun n i ts va r hf hp => by
    obtain ⟨j, hj⟩ := getElem_of_mem hf
    obtain ⟨y, h1, k1⟩ := a.syms j _ hj
    have := kept_foreign k1
    subst this
    exact b.bound n i ts va r (mem_of_getElem h1) (a.bound n i ts va r hf hp)
  lines := a.lines.trans b.lines
  nest := b.nest.trans a.nest

/-- A step which keeps the tables. -/
theorem survives_front {s : TState} {f : Front} (k : Keeps s.front f) : Survives s { s with front := f } where
  syms := fun i x h => by
    obtain ⟨y, h1, k1⟩ := k.syms i x h
    exact ⟨y, h1, .kept (kept_unmarked k1)⟩
  strings := k.strings
  globals := k.globals
  functions := k.functions
  foreign := by rw [k.foreign]; exact Nat.le_refl _
  code := fun _ _ => rfl
  entries := fun _ _ _ h => h
  bound := fun _ _ _ _ _ _ h => h
  lines := .refl _
  nest := rfl

/-! ## Parsing -/

theorem parse_keeps {n : Nat} {ts : List Tk} {f : Front} (ht : Tail3 ts) (hf : f.currFunc = .none) :
    match parseProgram n ⟨ts, f⟩ with
      | .ok _ q => Keeps f q.st ∧ q.st.currFunc = .none
      | .err q => Keeps f q.st
      | _ => True := by
  obtain ⟨N, hN⟩ := c46_parse ht hf
  have hm := ((parseItems_mono frontOps).le (Nat.le_max_left n N)).1 ⟨ts, f⟩
  have h2 := hN (max n N) (Nat.le_max_right n N)
  rcases hm with hm | hm
  · unfold parseProgram; rw [hm]; trivial
  · unfold parseProgram at h2 ⊢
    rw [hm]
    cases hp : parseItems frontOps (max n N) ⟨ts, f⟩ with
    | ok x q => rw [hp] at h2; exact h2
    | err q => rw [hp] at h2; exact h2
    | _ => trivial

/-- The variables declared belong to new symbols. -/
theorem places_new {f f' : Front} (k : Keeps f f') {ds : List Place} (st : Step f f' ds) :
    ∀ d ∈ ds, PlaceGe f.syms.length d := by
  intro d hd
  have hn := st.new d hd
  have hu := st.untagged d hd
  have key : ∀ i y, f'.syms[i]? = some y → (∃ v, y = .glob v) ∨ (∃ v, y = .func v) → i < f.syms.length → f.syms[i]? = some y := by
    intro i y hy hk hi
    obtain ⟨y', h1, h2⟩ := k.syms i f.syms[i] (by simp [hi])
    rw [hy] at h1
    cases h1
    rcases hk with ⟨v, rfl⟩ | ⟨v, rfl⟩
    · rw [List.getElem?_eq_getElem hi]
      generalize f.syms[i] = x at h2
      cases h2; rfl
    · rw [List.getElem?_eq_getElem hi]
      generalize f.syms[i] = x at h2
      cases h2; rfl
  obtain ⟨c, r⟩ := d
  unfold tagOf at hn hu
  cases r with
  | glob i =>
    simp only [tagIn, List.getElem?_map] at hn hu
    refine Nat.le_of_not_lt fun hi => ?_
    cases hy : f'.syms[i]? with
    | none => simp [hy] at hu
    | some y =>
      rw [hy] at hu
      have hg : ∃ v, y = .glob v := by cases y <;> simp [Sym.core, neutral] at hu ⊢
      obtain ⟨v, rfl⟩ := hg
      rw [key i _ hy (.inl ⟨v, rfl⟩) hi] at hn
      simp [Sym.core] at hn
  | loc q =>
    cases c with
    | none => simp [tagIn] at hu
    | dangling => simp [tagIn] at hu
    | «at» j =>
      simp only [tagIn, List.getElem?_map] at hn hu
      refine Nat.le_of_not_lt fun hi => ?_
      cases hy : f'.syms[j]? with
      | none => simp [hy] at hu
      | some y =>
        rw [hy] at hu
        have hg : ∃ v, y = .func v := by cases y <;> simp [Sym.core, neutral] at hu ⊢
        obtain ⟨v, rfl⟩ := hg
        rw [key j _ hy (.inr ⟨v, rfl⟩) hi] at hn
        simp only [Option.map_some, Sym.core] at hn hu
        rw [hu] at hn
        cases hn
  | arg q => cases c <;> simp [tagIn] at hu

/-- What we need to know of a parsed program. -/
structure Parsed (f f' : Front) (xs : List CStmt) : Prop where
  keeps : Keeps f f'
  tables : Tables f'
  cur : f'.currFunc = .none
  own : DeclareOwn xs
  places : ∀ d ∈ pdeclsL .none xs, PlaceGe f.syms.length d
  procs : Positions f f' (procPosL xs)

theorem parse_parsed {n : Nat} {ts : List Tk} {f : Front} {xs : List CStmt} {q : PS Front} (ht : Tail3 ts) (hf : Tables f)
    (hc : f.currFunc = .none) (h : parseProgram n ⟨ts, f⟩ = .ok xs q) : Parsed f q.st xs := by
  have k := parse_keeps (n := n) ht hc
  rw [h] at k
  obtain ⟨ss, us, nx, rest, s', h1, rfl, h3, h4⟩ := c45_program_sound frontOps h
  obtain ⟨a, b⟩ := step_stmts ss (plain_prog h3) h4
  refine ⟨k.1, a.tables hf, k.2, b, ?_, named_positions h4⟩
  have := places_new k.1 a
  rwa [hc] at this

/-! ## The other phases -/

/-- From states satisfying `P`, the action ends with `Q`; if it reports an error, what was in `s0` is still there. -/
def SH {α : Type} (s0 : TState) (P : TState → Prop) (x : Act TState α) (Q : α → TState → Prop) : Prop :=
  ∀ s, P s → match x s with
    | .ok a s' => Q a s'
    | .err s' => Survives s0 s'
    | _ => True

section
variable {α β : Type} {s0 : TState}

theorem SH.bind {P : TState → Prop} {x : Act TState α} {g : α → Act TState β} {Q : α → TState → Prop} {R : β → TState → Prop}
    (hx : SH s0 P x Q) (hg : ∀ a, SH s0 (Q a) (g a) R) : SH s0 P (x >>= g) R := by
  intro s hs
  have h1 := hx s hs
  rw [Act.bind_apply]
  cases hxs : x s with
  | ok a s1 =>
    rw [hxs] at h1
    exact hg a s1 h1
  | err s1 => rw [hxs] at h1; exact h1
  | _ => trivial

theorem SH.pure {a : α} {P : TState → Prop} {Q : α → TState → Prop} (h : ∀ s, P s → Q a s) :
    SH s0 P (Pure.pure a : Act TState α) Q := fun s hs => h s hs

theorem sh_report {P : TState → Prop} {Q : α → TState → Prop} (h : ∀ s, P s → Survives s0 s) :
    SH s0 P (.report : Act TState α) Q := fun s hs => h s hs

theorem sh_undef {P : TState → Prop} {Q : α → TState → Prop} : SH s0 P (.undef : Act TState α) Q := fun _ _ => trivial

theorem sh_get {P : TState → Prop} : SH s0 P (.get : Act TState TState) fun a s => a = s ∧ P s := fun _ hs => ⟨rfl, hs⟩

theorem sh_modify {P : TState → Prop} {Q : Unit → TState → Prop} {g : TState → TState} (h : ∀ s, P s → Q () (g s)) :
    SH s0 P (.modify g) Q := fun s hs => h s hs

theorem sh_if {p : Prop} [Decidable p] {P : TState → Prop} {x y : Act TState α} {Q : α → TState → Prop} (hx : p → SH s0 P x Q)
    (hy : ¬ p → SH s0 P y Q) : SH s0 P (if p then x else y) Q := by
  by_cases h : p
  · rw [if_pos h]; exact hx h
  · rw [if_neg h]; exact hy h

theorem SH.pre {P P' : TState → Prop} {x : Act TState α} {Q : α → TState → Prop} (h : SH s0 P x Q) (hp : ∀ s, P' s → P s) :
    SH s0 P' x Q := fun s hs => h s (hp s hs)

end

/-- Between the phases: what was in `s0` is there, the program is `xs`. -/
structure Mid (s0 : TState) (xs : List CStmt) (s : TState) : Prop where
  survives : Survives s0 s
  size : s0.program.length ≤ s.program.length
  tables : Tables s.front
  cur : s.front.currFunc = .none
  own : DeclareOwn xs
  places : ∀ d ∈ pdeclsL .none xs, PlaceGe s0.front.syms.length d
  later : ∀ j ∈ procPosL xs, s0.front.syms.length ≤ j
  sorted : (procPosL xs).Pairwise (· < ·)

theorem sh_parse {E : CompileEnv} {ts : List Tk} {s0 : TState} (ht : Tail3 ts) (hT : Tables s0.front)
    (hc : s0.front.currFunc = .none) : SH s0 (· = s0) (parseTokens E.fuel ts) (Mid s0) := by
  rintro s rfl
  unfold parseTokens
  have hk := parse_keeps (n := E.fuel) ht hc
  cases hp : parseProgram E.fuel ⟨ts, s.front⟩ with
  | ok xs q =>
    have k := parse_parsed ht hT hc hp
    exact ⟨survives_front k.keeps, Nat.le_refl _, k.tables, k.cur, k.own, k.places, fun j hj => (k.procs.2.2 j hj).1, k.procs.2.1⟩
  | err q => rw [hp] at hk; exact survives_front hk
  | _ => trivial

theorem sh_macros {E : CompileEnv} (hE : MacrosKeep E) {s0 : TState} {xs : List CStmt} :
    ∀ ys : List CStmt, SH s0 (Mid s0 xs) (useMacros E ys) fun _ => Mid s0 xs
  | [] => .pure fun _ h => h
  | y :: ys => by
    have ih := sh_macros hE (s0 := s0) (xs := xs) ys
    unfold useMacros
    split
    · next h => cases h
    · next line m args a ss h =>
      cases h
      refine SH.bind ?_ fun _ => ih
      unfold useMacro
      refine sh_get.bind fun s => sh_if (fun _ => sh_if (fun _ => sh_undef) fun _ => ?_) fun _ => sh_report fun t ht => ht.2.survives
      refine SH.bind (Q := fun _ => Mid s0 xs) ?_ fun b => sh_if (fun _ => .pure fun _ h => h) fun _ => sh_report fun t ht => ht.survives
      rintro t ⟨rfl, ht⟩
      have := hE m args a s ht.tables ht.cur
      cases hm : E.macros m args a s with
      | ok b s' =>
        rw [hm] at this
        exact ⟨ht.survives.trans ht.size this.1, Nat.le_trans ht.size this.2.1, this.2.2.1, this.2.2.2, ht.own, ht.places,
          ht.later, ht.sorted⟩
      | err s' =>
        rw [hm] at this
        exact ht.survives.trans ht.size this.1
      | _ => trivial
    · next h => cases h; exact ih

theorem sh_structs {s0 : TState} {xs : List CStmt} (i j : Nat) : SH s0 (Mid s0 xs) (checkStructs i j) fun _ => Mid s0 xs := by
  unfold checkStructs
  exact sh_get.bind fun s => sh_if (fun _ => sh_report fun t ht => ht.2.survives) fun _ => .pure fun t ht => ht.2

/-- The symbols, counters and strings of the new table still contain the old ones. -/
theorem _root_.Tiny.Spec.Survives.front {s0 s : TState} (h : Survives s0 s) {f : Front} (hk : RKeep s0.front.syms.length s.front f) :
    Survives s0 { s with front := f } where
  syms := fun i x hx => by
    obtain ⟨y, h1, k1⟩ := h.syms i x hx
    exact ⟨y, by rw [← h1]; exact hk.old i (List.getElem?_eq_some_iff.1 hx).1, k1⟩
  strings := by rw [hk.strings]; exact h.strings
  globals := by rw [hk.globals]; exact h.globals
  functions := by rw [hk.functions]; exact h.functions
  foreign := by rw [hk.foreign]; exact h.foreign
  code := h.code
  entries := h.entries
  bound := h.bound
  lines := h.lines
  nest := h.nest

/-- After `dropHalt`. -/
structure Cut (s0 : TState) (xs : List CStmt) (s : TState) : Prop where
  survives : Survives s0 s
  size : s0.program.length ≤ s.program.length + 1
  tables : Tables s.front
  cur : s.front.currFunc = .none
  own : DeclareOwn xs
  places : ∀ d ∈ pdeclsL .none xs, PlaceGe s0.front.syms.length d
  later : ∀ j ∈ procPosL xs, s0.front.syms.length ≤ j
  sorted : (procPosL xs).Pairwise (· < ·)

theorem sh_dropHalt {s0 : TState} {xs : List CStmt} : SH s0 (Mid s0 xs) dropHalt fun _ => Cut s0 xs := by
  refine sh_modify fun s hs => ?_
  have hl : s0.program.length ≤ (if s.program.getLast? = some Op.halt.toByte then s.program.dropLast else s.program).length + 1 := by
    have := hs.size
    split
    · rw [List.length_dropLast]; omega
    · omega
  refine ⟨⟨hs.survives.syms, hs.survives.strings, hs.survives.globals, hs.survives.functions, hs.survives.foreign, fun k hk => ?_,
    hs.survives.entries, hs.survives.bound, hs.survives.lines, hs.survives.nest⟩, hl, hs.tables, hs.cur, hs.own, hs.places, hs.later, hs.sorted⟩
  rw [← hs.survives.code k hk]
  simp only
  split
  · rw [List.getElem?_dropLast, if_pos (by have := hs.size; omega)]
  · rfl

/-- After the type checker. -/
structure Typed (s0 : TState) (ss : List Stmt) (s : TState) : Prop where
  survives : Survives s0 s
  size : s0.program.length ≤ s.program.length + 1
  tables : Tables s.front
  cur : s.front.currFunc = .none
  ids : ∃ ps : List Nat, (idsL ss).Perm (funIds (s.front.syms.map Sym.bare) ps) ∧ (∀ j ∈ ps, s0.front.syms.length ≤ j) ∧
    ps.Pairwise (· < ·)

theorem sh_resolve {s0 : TState} {xs : List CStmt} : SH s0 (Cut s0 xs) (onFront (resolveSs xs)) (Typed s0) := by
  intro s hs
  have h := rh_Ss (B := s.front.syms.map Sym.bare) xs hs.places s.front hs.cur rfl
  unfold onFront
  cases hr : resolveSs xs s.front with
  | ok ss f =>
    rw [hr] at h
    have k := (resolveSs_has xs hs.tables hs.own hr).like
    exact ⟨hs.survives.front h.1, hs.size, k.tables hs.tables, h.2.1, procPosL xs, by rw [show (f.syms.map Sym.bare) = _ from h.1.bare]; exact h.2.2, hs.later,
      hs.sorted⟩
  | err f =>
    rw [hr] at h
    exact hs.survives.front h
  | _ => trivial

/-- The entries of the bound functions after `BuildForeignFunctions`. -/
theorem build_other {i : Nat} : ∀ (l : List Sym) (t : List (Option Name)), i ∉ l.filterMap Sym.foreignIdx →
    (buildForeign l t)[i]? = t[i]?
  | [], t, _ => rfl
  | x :: xs, t, h => by
    cases x with
    | foreign n j ts va r =>
      simp only [List.filterMap_cons, Sym.foreignIdx, List.mem_cons, not_or] at h
      rw [buildForeign, build_other xs _ h.2, List.getElem?_set_ne (Ne.symm h.1)]
    | _ =>
      simp only [List.filterMap_cons, Sym.foreignIdx] at h
      rw [buildForeign, build_other xs _ h]
      exact fun _ _ _ _ _ e => by cases e

theorem build_len : ∀ (l : List Sym) (t : List (Option Name)), (buildForeign l t).length = t.length
  | [], t => rfl
  | x :: xs, t => by
    cases x <;> simp only [buildForeign] <;> rw [build_len xs] <;> simp

theorem build_self {n : Name} {i : Nat} {ts : List Tag} {va : Bool} {r : Tag} : ∀ (l : List Sym) (t : List (Option Name)),
    (l.filterMap Sym.foreignIdx).Pairwise (· < ·) → Sym.foreign n i ts va r ∈ l → i < t.length →
    (buildForeign l t)[i]? = some (some n)
  | [], t, _, h, _ => by cases h
  | x :: xs, t, hp, h, hi => by
    rcases List.mem_cons.1 h with rfl | h'
    · simp only [List.filterMap_cons, Sym.foreignIdx, List.pairwise_cons] at hp
      rw [buildForeign, build_other xs _ fun hm => Nat.lt_irrefl _ (hp.1 _ hm), List.getElem?_set_self hi]
    · cases x with
      | foreign m j ts' va' r' =>
        simp only [List.filterMap_cons, Sym.foreignIdx, List.pairwise_cons] at hp
        rw [buildForeign]
        exact build_self xs _ hp.2 h' (by simpa using hi)
      | _ =>
        simp only [List.filterMap_cons, Sym.foreignIdx] at hp
        rw [buildForeign]
        · exact build_self xs _ hp h' hi
        · exact fun _ _ _ _ _ e => by cases e

theorem sh_realloc {s0 : TState} {ss : List Stmt} : SH s0 (Typed s0 ss) reallocTables fun _ => Typed s0 ss := by
  refine sh_modify fun s hs => ?_
  refine ⟨⟨hs.survives.syms, hs.survives.strings, hs.survives.globals, hs.survives.functions, hs.survives.foreign,
    hs.survives.code, fun fi hf p hp => ?_, fun n i ts va r hf hp => ?_, hs.survives.lines, hs.survives.nest⟩, hs.size,
    hs.tables, hs.cur, hs.ids⟩
  · have := hs.survives.entries fi hf p hp
    simp only
    rw [List.getElem?_append_left (List.getElem?_eq_some_iff.1 this).1]
    exact this
  · have h1 := hs.survives.bound n i ts va r hf hp
    obtain ⟨j, hj⟩ := getElem_of_mem hf
    obtain ⟨y, h2, k1⟩ := hs.survives.syms j _ hj
    have := kept_foreign k1
    subst this
    refine build_self _ _ hs.tables.slots.foreigns (mem_of_getElem h2) ?_
    have := (List.getElem?_eq_some_iff.1 h1).1
    simp only [List.length_append]
    omega

theorem sh_file {s0 : TState} {ss : List Stmt} (file : Option Name) :
    SH s0 (Typed s0 ss) (fileIndex file ss) fun _ => Typed s0 ss := by
  unfold fileIndex
  cases file with
  | none => exact .pure fun _ h => h
  | some n =>
    refine sh_if (fun _ => ?_) fun _ => .pure fun _ h => h
    refine SH.bind ?_ fun i => .pure fun _ h => h
    intro s hs
    unfold onFront
    cases hr : registerString n s.front with
    | ok i f =>
      have a := adds_str hr
      have hsy : f.syms = s.front.syms ∧ s.front.strings <+: f.strings ∧ f.numGlobalVars = s.front.numGlobalVars ∧
          f.numFunctions = s.front.numFunctions ∧ f.numForeign = s.front.numForeign ∧ f.currFunc = s.front.currFunc := by
        unfold registerString at hr
        split at hr
        · cases hr; exact ⟨rfl, List.prefix_refl _, rfl, rfl, rfl, rfl⟩
        · split at hr
          · cases hr; exact ⟨rfl, List.prefix_append _ _, rfl, rfl, rfl, rfl⟩
          · cases hr
      obtain ⟨e1, e2, e3, e4, e5, e6⟩ := hsy
      have hv := hs.survives
      refine ⟨⟨fun i x hx => ?_, hv.strings.trans e2, ?_, ?_, ?_, hv.code, hv.entries, hv.bound, hv.lines, hv.nest⟩, hs.size,
        a.step.tables hs.tables, e6.trans hs.cur, ?_⟩
      · rw [show f.syms = _ from e1]; exact hv.syms i x hx
      · rw [show f.numGlobalVars = _ from e3]; exact hv.globals
      · rw [show f.numFunctions = _ from e4]; exact hv.functions
      · rw [show f.numForeign = _ from e5]; exact hv.foreign
      · rw [show f.syms = _ from e1]; exact hs.ids
    | err f =>
      exfalso
      unfold registerString at hr
      split at hr
      · cases hr
      · split at hr <;> cases hr
    | _ => trivial

theorem bare_funcIdx (x : Sym) : x.bare.funcIdx = x.funcIdx := by cases x <;> rfl

theorem pairwise_idx {l : List Sym} (h : (l.filterMap Sym.funcIdx).Pairwise (· < ·)) {i j : Nat} {a b : Nat} (hij : i < j)
    (hi : l[i]?.bind Sym.funcIdx = some a) (hj : l[j]?.bind Sym.funcIdx = some b) : a < b := by
  induction l generalizing i j with
  | nil => simp at hi
  | cons x xs ih =>
    have ht : (xs.filterMap Sym.funcIdx).Pairwise (· < ·) := by
      cases hx : Sym.funcIdx x with
      | none => rwa [List.filterMap_cons_none hx] at h
      | some c => rw [List.filterMap_cons_some hx] at h; exact (List.pairwise_cons.1 h).2
    cases j with
    | zero => omega
    | succ j =>
      simp only [List.getElem?_cons_succ] at hj
      cases i with
      | zero =>
        simp only [List.getElem?_cons_zero, Option.bind_some] at hi
        rw [List.filterMap_cons_some hi] at h
        refine (List.pairwise_cons.1 h).1 b ?_
        obtain ⟨y, hy, e⟩ := Option.bind_eq_some_iff.1 hj
        exact List.mem_filterMap.2 ⟨y, mem_of_getElem hy, e⟩
      | succ i =>
        simp only [List.getElem?_cons_succ] at hi
        exact ih ht (by omega) hi hj

theorem getElem_bare {l : List Sym} (j : Nat) : (l.map Sym.bare)[j]?.bind Sym.funcIdx = l[j]?.bind Sym.funcIdx := by
  rw [List.getElem?_map]
  cases l[j]? with
  | none => rfl
  | some x => simp [bare_funcIdx]

/-- The numbers of the new functions are not those of old ones. -/
theorem Typed.new {s0 s : TState} {ss : List Stmt} (h : Typed s0 ss s) {fi : FuncInfo} (hf : Sym.func fi ∈ s0.front.syms) :
    fi.index ∉ idsL ss := by
  intro hm
  obtain ⟨ps, h1, h2, h3⟩ := h.ids
  rw [h1.mem_iff] at hm
  simp only [funIds, List.mem_filterMap] at hm
  obtain ⟨j, hj, e⟩ := hm
  rw [getElem_bare] at e
  obtain ⟨i, hi⟩ := getElem_of_mem hf
  obtain ⟨y, h4, k⟩ := h.survives.syms i _ hi
  obtain ⟨fi', rfl, e'⟩ := kept_func k
  have : fi'.index < fi.index := pairwise_idx h.tables.slots.funcs (i := i) (j := j)
    (Nat.lt_of_lt_of_le (List.getElem?_eq_some_iff.1 hi).1 (h2 j hj)) (by rw [h4]; rfl) e
  omega

/-- The numbers of the new functions are different. -/
theorem Typed.nodup {s0 s : TState} {ss : List Stmt} (h : Typed s0 ss s) : (idsL ss).Nodup := by
  obtain ⟨ps, h1, h2, h3⟩ := h.ids
  rw [h1.nodup_iff]
  clear h1 h2
  induction ps with
  | nil => exact List.nodup_nil
  | cons p ps ih =>
    rw [List.pairwise_cons] at h3
    simp only [funIds, List.filterMap_cons]
    cases hp : (s.front.syms.map Sym.bare)[p]?.bind Sym.funcIdx with
    | none => exact ih h3.2
    | some a =>
      refine List.nodup_cons.2 ⟨fun hm => ?_, ih h3.2⟩
      obtain ⟨q, hq, e⟩ := List.mem_filterMap.1 hm
      rw [getElem_bare] at e hp
      exact Nat.lt_irrefl _ (pairwise_idx h.tables.slots.funcs (h3.1 q hq) hp e)

/-- After the code generator. -/
structure Coded (s0 s : TState) : Prop where
  survives : Survives s0 s
  size : s0.program.length ≤ s.program.length
  tables : Tables s.front
  cur : s.front.currFunc = .none

theorem sh_code {s0 : TState} {ss : List Stmt} (i : Option Nat) (g : Globals) :
    SH s0 (Typed s0 ss) (onCode i (do let _ ← compileSs g ss; genOp .halt)) fun _ => Coded s0 := by
  intro s hs
  have hc := (ch_Ss (k := s.program.length) (I := (· ∈ idsL ss)) g ss fun _ h => h) ⟨s.program, s.lines, i, s.functionPcs⟩
    (Nat.le_refl _)
  have key : ∀ c : CS, CKeep s.program.length (· ∈ idsL ss) ⟨s.program, s.lines, i, s.functionPcs⟩ c →
      Survives s0 { s with program := c.program, lines := c.lines, functionPcs := c.functionPcs } := by
    intro c k
    have hv := hs.survives
    refine ⟨hv.syms, hv.strings, hv.globals, hv.functions, hv.foreign, fun j hj => ?_, fun fi hf p hp => ?_, hv.bound,
      hv.lines.trans k.lines, hv.nest⟩
    · exact (k.agree j (by have := hs.size; omega)).trans (hv.code j hj)
    · have := hv.entries fi hf p hp
      rw [← this]
      exact k.fpcs _ (hs.new hf)
  unfold onCode
  cases hr : compileSs g ss ⟨s.program, s.lines, i, s.functionPcs⟩ with
  | ok a c =>
    rw [hr] at hc
    simp only [Bind.bind, hr]
    have h2 : CKeep s.program.length (· ∈ idsL ss) c { c with program := c.program ++ [Op.halt.toByte] } :=
      ch_append (by have := hc.1.le; exact this) _
    have h3 := hc.1.trans h2
    exact ⟨key _ h3, by have := hs.size; have := hc.1.le; simp only [List.length_append, List.length_singleton] at *; omega,
      hs.tables, hs.cur⟩
  | err c =>
    rw [hr] at hc
    simp only [Bind.bind, hr]
    exact key c hc
  | abort => simp only [Bind.bind, hr]
  | ub => simp only [Bind.bind, hr]

theorem sh_tree {s0 : TState} {xs : List CStmt} (file : Option Name) :
    SH s0 (Mid s0 xs) (compileTree file xs) fun _ => Coded s0 := by
  unfold compileTree
  refine sh_dropHalt.bind fun _ => sh_resolve.bind fun ss => sh_realloc.bind fun _ => (sh_file file).bind fun i => ?_
  refine sh_get.bind fun t => ?_
  exact ((sh_code i _).pre fun s h => h.2).bind fun _ => .pure fun _ h => h

theorem mark_unmarkedVar (l : List (Option Nat × VarSym)) (n : Nat) (v : VarInfo) : unmarkedVar (markLocal l n v) = unmarkedVar v := by
  unfold markLocal
  split <;> rfl

theorem mark_unmarked (l : List (Option Nat × VarSym)) (x : Sym) : unmarked (x.mark l) = unmarked x := by
  cases x <;> simp only [Sym.mark, unmarked]
  · split <;> rfl
  · simp [List.map_map, Function.comp_def, mark_unmarkedVar]

theorem mark_core (l : List (Option Nat × VarSym)) (x : Sym) : (x.mark l).core = x.core := by
  rw [← core_unmarked, mark_unmarked, core_unmarked]

theorem sh_mark {s0 : TState} (ss : List Stmt) : SH s0 (Coded s0) (markAll ss) fun _ => Coded s0 := by
  refine sh_modify fun s hs => ?_
  have hv := hs.survives
  refine ⟨⟨fun i x hx => ?_, hv.strings, hv.globals, hv.functions, hv.foreign, hv.code, hv.entries, hv.bound, hv.lines, hv.nest⟩,
    hs.size, ?_, hs.cur⟩
  · obtain ⟨y, h1, k⟩ := hv.syms i x hx
    exact ⟨y.mark (assignedL none ss), by simp [h1], by rw [mark_unmarked]; exact k⟩
  · rw [tables_core]
    have : (s.front.syms.map (Sym.mark (assignedL none ss))).map Sym.core = s.front.syms.map Sym.core := by
      simp [List.map_map, Function.comp_def, mark_core]
    simp only
    rw [this, ← tables_core (f := s.front)]
    exact hs.tables

/-- All phases. -/
theorem sh_phases {E : CompileEnv} (hE : MacrosKeep E) {ts : List Tk} {s0 : TState} (ht : Tail3 ts) (hT : Tables s0.front)
    (hc : s0.front.currFunc = .none) (file : Option Name) : SH s0 (· = s0) (compilePhases E file ts) fun _ => Coded s0 := by
  unfold compilePhases
  refine (sh_get (P := (· = s0))).bind fun a => ((sh_parse ht hT hc).pre fun s h => h.2).bind fun xs => ?_
  refine sh_get.bind fun b => ((sh_macros hE xs).pre fun s h => h.2).bind fun _ => (sh_structs _ _).bind fun _ => ?_
  refine (sh_tree file).bind fun ss => (sh_mark ss).bind fun _ => ?_
  unfold checkInitialized
  exact sh_get.bind fun s => sh_if (fun _ => sh_report fun t ht => ht.2.survives) fun _ => .pure fun t ht => ht.2

/-! ## Undoing -/

theorem restore_length (old new : List UInt8) (h : old.length ≤ new.length + 1) : (restoreProgram old new).length = old.length := by
  unfold restoreProgram
  simp only [List.length_take, List.length_append, List.length_drop]
  omega

theorem restore_agree {old new : List UInt8} {k : Nat} (hk : k + 1 < old.length) (h : new[k]? = old[k]?) :
    (restoreProgram old new)[k]? = old[k]? := by
  unfold restoreProgram
  rw [List.getElem?_take_of_lt (by omega)]
  have : k < new.length := by
    have : old[k]? = some old[k] := List.getElem?_eq_getElem (by omega)
    rw [this] at h
    exact (List.getElem?_eq_some_iff.1 h).1
  rw [List.getElem?_append_left this, h]

end Tiny
