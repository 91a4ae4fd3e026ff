import Verif.Proofs.ResolveStmt
import Verif.Proofs.Checked
import Verif.Proofs.ParseSoundS

/-!
# The symbol table after parsing

What the type checker relies on holds of the trees and tables the parser makes.
-/

namespace Tiny
open Spec

/-! ## The part of the symbol table which matters -/

/-- Storage number and type. -/
def VarInfo.core (v : VarInfo) : VarInfo := { name := [], idx := v.idx, tag := v.tag }

/-- A symbol of no interest. -/
def neutral : Sym := .module []

/-- Variables, constants, functions. -/
def Sym.core : Sym → Sym
  | .glob v => .glob v.core
  | .const _ t c => .const [] t c
  | .func fi => .func { name := [], index := fi.index, args := fi.args.map VarInfo.core,
                        locals := fi.locals.map VarInfo.core, ret := fi.ret }
  | .foreign _ i _ _ _ => .foreign [] i [] false .void
  | _ => neutral

theorem core_func {x : Sym} {fi : FuncInfo} (h : x.core = .func fi) :
    ∃ g, x = .func g ∧ fi = { name := [], index := g.index, args := g.args.map VarInfo.core,
                              locals := g.locals.map VarInfo.core, ret := g.ret } := by
  cases x <;> simp only [Sym.core, neutral, reduceCtorEq, Sym.func.injEq] at h
  exact ⟨_, rfl, h.symm⟩

theorem core_glob {x : Sym} {v : VarInfo} (h : x.core = .glob v) : ∃ u, x = .glob u ∧ v = u.core := by
  cases x <;> simp only [Sym.core, neutral, reduceCtorEq, Sym.glob.injEq] at h
  exact ⟨_, rfl, h.symm⟩

theorem core_const {x : Sym} {n : Name} {t : Tag} {c : ConstVal} (h : x.core = .const n t c) :
    ∃ m, x = .const m t c := by
  cases x <;> simp only [Sym.core, neutral, reduceCtorEq, Sym.const.injEq] at h
  exact ⟨_, by rw [h.2.1, h.2.2]⟩

/-- The requirements of the type checker, on the core. -/
structure CoreOk (l : List Sym) (nG nF nX : Nat) : Prop where
  globs : (l.filterMap Sym.globIdx).Pairwise (· < ·)
  globBound : ∀ i ∈ l.filterMap Sym.globIdx, 0 ≤ i ∧ i < (nG : Int)
  funcs : (l.filterMap Sym.funcIdx).Pairwise (· < ·)
  funcBound : ∀ i ∈ l.filterMap Sym.funcIdx, i < nF
  foreigns : (l.filterMap Sym.foreignIdx).Pairwise (· < ·)
  foreignBound : ∀ i ∈ l.filterMap Sym.foreignIdx, i < nX
  args : ∀ f, .func f ∈ l → ∀ (k : Nat) v, f.args[k]? = some v → v.idx = -(f.args.length : Int) + (k : Int)
  locals : ∀ f, .func f ∈ l → ∀ (k : Nat) v, f.locals[k]? = some v → v.idx = (k : Int)
  consts : ∀ n t c, Sym.const n t c ∈ l → t = constTag c
  tags : ∀ fi, Sym.func fi ∈ l → ∀ v ∈ fi.args, v.tag.isSome = true
  rets : ∀ fi, Sym.func fi ∈ l → fi.ret.isSome = true

theorem filterMap_core {α : Type} (g : Sym → Option α) (h : ∀ x : Sym, g x.core = g x) (l : List Sym) :
    (l.map Sym.core).filterMap g = l.filterMap g := by
  induction l with
  | nil => rfl
  | cons x xs ih => simp only [List.map_cons, List.filterMap_cons, h, ih]

theorem core_map {l : List VarInfo} {k : Nat} {v : VarInfo} (h : l[k]? = some v) :
    (l.map VarInfo.core)[k]? = some v.core := by simp [h]

theorem tables_core {f : Front} :
    Tables f ↔ CoreOk (f.syms.map Sym.core) f.numGlobalVars f.numFunctions f.numForeign := by
  have e1 : (f.syms.map Sym.core).filterMap Sym.globIdx = f.syms.filterMap Sym.globIdx :=
    filterMap_core _ (fun x => by cases x <;> rfl) _
  have e2 : (f.syms.map Sym.core).filterMap Sym.funcIdx = f.syms.filterMap Sym.funcIdx :=
    filterMap_core _ (fun x => by cases x <;> rfl) _
  have e3 : (f.syms.map Sym.core).filterMap Sym.foreignIdx = f.syms.filterMap Sym.foreignIdx :=
    filterMap_core _ (fun x => by cases x <;> rfl) _
  have hf : ∀ {fi : FuncInfo}, Sym.func fi ∈ f.syms → (Sym.func fi).core ∈ f.syms.map Sym.core :=
    fun h => List.mem_map.2 ⟨_, h, rfl⟩
  constructor
  · rintro ⟨⟨a, b, c, d, e, g, i, j⟩, k, l, m⟩
    refine ⟨by rwa [e1], by rw [e1]; exact b, by rwa [e2], by rw [e2]; exact d, by rwa [e3], by rw [e3]; exact g, ?_, ?_, ?_, ?_, ?_⟩
    · intro fi h n v hv
      obtain ⟨x, hx, e⟩ := List.mem_map.1 h
      obtain ⟨g, rfl, rfl⟩ := core_func e
      simp only [List.getElem?_map, Option.map_eq_some_iff] at hv
      obtain ⟨u, hu, rfl⟩ := hv
      have := i g hx n u hu
      simpa [VarInfo.core] using this
    · intro fi h n v hv
      obtain ⟨x, hx, e⟩ := List.mem_map.1 h
      obtain ⟨g, rfl, rfl⟩ := core_func e
      simp only [List.getElem?_map, Option.map_eq_some_iff] at hv
      obtain ⟨u, hu, rfl⟩ := hv
      exact j g hx n u hu
    · intro n t c h
      obtain ⟨x, hx, e⟩ := List.mem_map.1 h
      obtain ⟨m, rfl⟩ := core_const e
      exact k _ _ _ hx
    · intro fi h v hv
      obtain ⟨x, hx, e⟩ := List.mem_map.1 h
      obtain ⟨g, rfl, rfl⟩ := core_func e
      obtain ⟨u, hu, rfl⟩ := List.mem_map.1 hv
      exact l g hx u hu
    · intro fi h
      obtain ⟨x, hx, e⟩ := List.mem_map.1 h
      obtain ⟨g, rfl, rfl⟩ := core_func e
      exact m g hx
  · rintro ⟨a, b, c, d, e, g, i, j, k, l, m⟩
    rw [e1] at a b
    rw [e2] at c d
    rw [e3] at e g
    refine ⟨⟨a, b, c, d, e, g, ?_, ?_⟩, ?_, ?_, ?_⟩
    · intro fi h n v hv
      have := i _ (hf h) n _ (core_map hv)
      simpa [VarInfo.core] using this
    · intro fi h n v hv
      exact j _ (hf h) n v.core (core_map hv)
    · intro n t c h
      exact k [] t c (List.mem_map.2 ⟨_, h, rfl⟩)
    · intro fi h v hv
      exact l _ (hf h) v.core (List.mem_map.2 ⟨v, hv, rfl⟩)
    · intro fi h
      have := m _ (hf h)
      exact this

/-- A new symbol without storage. -/
theorem CoreOk.neutral {l : List Sym} {a b c : Nat} (h : CoreOk l a b c) (k : Nat) :
    CoreOk (l ++ List.replicate k neutral) a b c := by
  have e : ∀ {α : Type} (g : Sym → Option α), g Tiny.neutral = none → (List.replicate k Tiny.neutral).filterMap g = [] := by
    intro α g hg
    rw [List.filterMap_eq_nil_iff]
    intro x hx
    rw [(List.mem_replicate.1 hx).2, hg]
  have hm : ∀ x, x ∈ l ++ List.replicate k Tiny.neutral → x ≠ Tiny.neutral → x ∈ l := by
    intro x hx hn
    rcases List.mem_append.1 hx with h | h
    · exact h
    · exact absurd (List.mem_replicate.1 h).2 hn
  obtain ⟨a, b, c, d, f, g, i, j, n, m, o⟩ := h
  constructor <;> try simp only [List.filterMap_append, e Sym.globIdx rfl, e Sym.funcIdx rfl, e Sym.foreignIdx rfl, List.append_nil]
  · exact a
  · exact b
  · exact c
  · exact d
  · exact f
  · exact g
  · exact fun fi h => i fi (hm _ h (by simp [Tiny.neutral]))
  · exact fun fi h => j fi (hm _ h (by simp [Tiny.neutral]))
  · exact fun a b c h => n a b c (hm _ h (by simp [Tiny.neutral]))
  · exact fun fi h => m fi (hm _ h (by simp [Tiny.neutral]))
  · exact fun fi h => o fi (hm _ h (by simp [Tiny.neutral]))

/-! ## The type of a variable of the tree -/

/-- A variable as the parser names it: the function it belongs to (if it is a local one), where it is. -/
abbrev Place := Cur × SymRef

/-- Its type so far: `none` if there is no such variable. -/
def tagIn (l : List Sym) : Place → Option (Option Tag)
  | (_, .glob i) =>
    match l[i]? with
    | some (.glob v) => some v.tag
    | _ => none
  | (.at j, .loc k) =>
    match l[j]? with
    | some (.func fi) => (fi.locals[k]?).map VarInfo.tag
    | _ => none
  | _ => none

/-- Its type so far. -/
def tagOf (f : Front) (d : Place) : Option (Option Tag) := tagIn (f.syms.map Sym.core) d

/-- Declarations give the place in the table. -/
def place (c : Cur) : SymRef → Place
  | .glob i => (.none, .glob i)
  | r => (c, r)

mutual
/-- The variables declared by `:=`. -/
def pdecls (c : Cur) : CStmt → List Place
  | .node _ s => pdecls c s
  | .block ss => pdeclsL c ss
  | .assign .declare _ (.id _ (some r)) _ => [place c r]
  | .proc i _ _ _ b => pdecls (.at i) b
  | .ifThen _ b => pdecls c b
  | .ifElse _ b a => pdecls c b ++ pdecls c a
  | .while _ b => pdecls c b
  | .for i _ s b => pdecls c i ++ (pdecls c s ++ pdecls c b)
  | _ => []
/-- See `pdecls`. -/
def pdeclsL (c : Cur) : List CStmt → List Place
  | [] => []
  | s :: ss => pdecls c s ++ pdeclsL c ss
end

/-- What happens to the table while a statement with these declarations is read. -/
structure Step (f f' : Front) (ds : List Place) : Prop where
  tables : Tables f → Tables f'
  cur : f'.currFunc = f.currFunc
  grow : ∀ d t, tagOf f d = some t → tagOf f' d = some t
  nodup : ds.Nodup
  new : ∀ d ∈ ds, tagOf f d = none
  untagged : ∀ d ∈ ds, tagOf f' d = some none

theorem Step.trans {f g h : Front} {ds es : List Place} (a : Step f g ds) (b : Step g h es) : Step f h (ds ++ es) where
  tables := fun ht => b.tables (a.tables ht)
  cur := b.cur.trans a.cur
  grow := fun d t hd => b.grow d t (a.grow d t hd)
  nodup := List.nodup_append.2 ⟨a.nodup, b.nodup, fun x hx y hy e => by
    subst e
    have h1 := a.untagged x hx
    rw [b.new x hy] at h1
    cases h1⟩
  new := fun d hd => by
    rcases List.mem_append.1 hd with hd | hd
    · exact a.new d hd
    · cases he : tagOf f d with
      | none => rfl
      | some t =>
        have h1 := a.grow d t he
        rw [b.new d hd] at h1
        cases h1
  untagged := fun d hd => by
    rcases List.mem_append.1 hd with hd | hd
    · exact b.grow d none (a.untagged d hd)
    · exact b.untagged d hd

/-- Nothing but symbols of no interest is added. -/
structure Adds (f f' : Front) : Prop where
  cur : f'.currFunc = f.currFunc
  nG : f'.numGlobalVars = f.numGlobalVars
  nF : f'.numFunctions = f.numFunctions
  nX : f'.numForeign = f.numForeign
  syms : ∃ k, f'.syms.map Sym.core = f.syms.map Sym.core ++ List.replicate k neutral

theorem Adds.refl (f : Front) : Adds f f := ⟨rfl, rfl, rfl, rfl, 0, by simp⟩

theorem Adds.trans {f g h : Front} (a : Adds f g) (b : Adds g h) : Adds f h := by
  obtain ⟨k, hk⟩ := a.syms
  obtain ⟨j, hj⟩ := b.syms
  exact ⟨b.cur.trans a.cur, b.nG.trans a.nG, b.nF.trans a.nF, b.nX.trans a.nX, k + j, by
    rw [hj, hk, List.append_assoc, List.replicate_append_replicate]⟩

theorem tagIn_neutral (l : List Sym) (k : Nat) (d : Place) : tagIn (l ++ List.replicate k neutral) d = tagIn l d := by
  have : ∀ i : Nat, (l ++ List.replicate k neutral)[i]? = l[i]? ∨
      (l[i]? = none ∧ (l ++ List.replicate k neutral)[i]? = some neutral) := by
    intro i
    by_cases hi : i < l.length
    · exact .inl (List.getElem?_append_left hi)
    · rw [List.getElem?_append_right (by omega), List.getElem?_replicate, List.getElem?_eq_none (by omega)]
      split
      · exact .inr ⟨rfl, rfl⟩
      · exact .inl rfl
  obtain ⟨c, r⟩ := d
  cases r with
  | glob i =>
    simp only [tagIn]
    rcases this i with h | ⟨h, h'⟩
    · rw [h]
    · rw [h, h']; rfl
  | loc i =>
    cases c with
    | «at» j =>
      simp only [tagIn]
      rcases this j with h | ⟨h, h'⟩
      · rw [h]
      · rw [h, h']; rfl
    | none => rfl
    | dangling => rfl
  | arg i => cases c <;> rfl

theorem Adds.step {f f' : Front} (a : Adds f f') : Step f f' [] := by
  obtain ⟨k, hk⟩ := a.syms
  refine ⟨fun ht => ?_, a.cur, fun d t h => ?_, List.nodup_nil, by simp, by simp⟩
  · rw [tables_core] at ht ⊢
    rw [hk, a.nG, a.nF, a.nX]
    exact ht.neutral k
  · unfold tagOf at h ⊢
    rw [hk, tagIn_neutral]
    exact h

/-! ## The operations -/

theorem adds_push {f : Front} {x : Sym} (h : x.core = neutral) : Adds f { f with syms := f.syms ++ [x] } :=
  ⟨rfl, rfl, rfl, rfl, 1, by simp [h]⟩

theorem adds_ref {n : Name} {f f' : Front} {r} (h : referenceVariable n f = .ok r f') : Adds f f' := by
  rw [referenceVariable_state h]; exact .refl _

theorem adds_str {s : List UInt8} {f f' : Front} {r} (h : registerString s f = .ok r f') : Adds f f' := by
  unfold registerString at h
  cases hf : f.strings.findIdx? (· == s) with
  | some i => rw [hf] at h; cases h; exact .refl _
  | none =>
    rw [hf] at h
    simp only at h
    by_cases hl : f.strings.length < maxStrings
    · rw [if_pos hl] at h; cases h; exact ⟨rfl, rfl, rfl, rfl, 0, by simp⟩
    · rw [if_neg hl] at h; cases h

theorem adds_struct {n : Name} {f f' : Front} {r} (h : declareStruct n f = .ok r f') : Adds f f' := by
  simp only [declareStruct, act_bind, Act.get] at h
  split at h
  · cases h; exact .refl _
  · cases h; exact adds_push rfl

theorem adds_named {n : Name} {f f' : Front} {r} (h : getTagFromName n f = .ok r f') : Adds f f' := by
  simp only [getTagFromName] at h
  cases hp : primTag n with
  | some t => rw [hp] at h; cases h; exact .refl _
  | none =>
    rw [hp] at h
    simp only [act_bind, Act.get] at h
    cases hs : f.syms.findSome? (·.asType n) with
    | some t => rw [hs] at h; cases h; exact .refl _
    | none => rw [hs] at h; cases h; exact adds_push rfl

theorem adds_nullable {t : Tag} {f f' : Front} {r} (h : makeNullable t f = .ok r f') : Adds f f' := by
  unfold makeNullable at h
  split at h
  · cases h
  · simp only [getOrCreateNullable, act_bind, Act.get] at h
    split at h
    · cases h; exact .refl _
    · cases h; exact adds_push rfl

theorem adds_type {ty : SType} {f f' : Front} {r} (h : nameType frontOps ty f = .ok r f') : Adds f f' := by
  unfold nameType at h
  obtain ⟨t, f1, h1, h⟩ := Act.ok_inv h
  replace h1 := adds_named h1
  split at h
  · exact h1.trans (adds_nullable h)
  · cases h; exact h1

mutual
theorem adds_expr : ∀ (e : SExpr) {f f' : Front} {x}, nameExpr frontOps e f = .ok x f' → Adds f f'
  | .null, _, _, _, h | .bool _, _, _, _, h | .int _, _, _, _, h | .char _, _, _, _, h | .float _, _, _, _, h => by
    cases h; exact .refl _
  | .str s, f, f', x, h => by
    obtain ⟨i, f1, h1, h⟩ := Act.ok_inv h
    cases h; exact adds_str h1
  | .id n _, f, f', x, h => by
    obtain ⟨i, f1, h1, h⟩ := Act.ok_inv h
    cases h; exact adds_ref h1
  | .call g args, f, f', x, h => by
    obtain ⟨i, f1, h1, h⟩ := Act.ok_inv h
    cases h; exact adds_exprs args h1
  | .paren e, f, f', x, h => by
    obtain ⟨i, f1, h1, h⟩ := Act.ok_inv h
    cases h; exact adds_expr e h1
  | .bin op l r, f, f', x, h => by
    obtain ⟨i, f1, h1, h⟩ := Act.ok_inv h
    obtain ⟨j, f2, h2, h⟩ := Act.ok_inv h
    cases h; exact (adds_expr l h1).trans (adds_expr r h2)
  | .un op e, f, f', x, h => by
    obtain ⟨i, f1, h1, h⟩ := Act.ok_inv h
    cases h; exact adds_expr e h1
  | .dot l n, f, f', x, h => by
    obtain ⟨i, f1, h1, h⟩ := Act.ok_inv h
    cases h; exact adds_expr l h1
  | .index a i, f, f', x, h => by
    obtain ⟨_, f1, h1, h⟩ := Act.ok_inv h
    obtain ⟨_, f2, h2, h⟩ := Act.ok_inv h
    cases h; exact (adds_expr a h1).trans (adds_expr i h2)
  | .ctor n names args, f, f', x, h => by
    obtain ⟨_, f1, h1, h⟩ := Act.ok_inv h
    obtain ⟨_, f2, h2, h⟩ := Act.ok_inv h
    cases h; exact (adds_struct h1).trans (adds_exprs args h2)
  | .cast e ty, f, f', x, h => by
    obtain ⟨_, f1, h1, h⟩ := Act.ok_inv h
    obtain ⟨_, f2, h2, h⟩ := Act.ok_inv h
    cases h; exact (adds_expr e h1).trans (adds_type h2)
  | .ite c a b, f, f', x, h => by
    obtain ⟨_, f1, h1, h⟩ := Act.ok_inv h
    obtain ⟨_, f2, h2, h⟩ := Act.ok_inv h
    obtain ⟨_, f3, h3, h⟩ := Act.ok_inv h
    cases h; exact ((adds_expr c h1).trans (adds_expr a h2)).trans (adds_expr b h3)
theorem adds_exprs : ∀ (es : List SExpr) {f f' : Front} {x}, nameExprs frontOps es f = .ok x f' → Adds f f'
  | [], _, _, _, h => by cases h; exact .refl _
  | e :: es, f, f', x, h => by
    obtain ⟨_, f1, h1, h⟩ := Act.ok_inv h
    obtain ⟨_, f2, h2, h⟩ := Act.ok_inv h
    cases h; exact (adds_expr e h1).trans (adds_exprs es h2)
end

theorem adds_params : ∀ (ps : List (Name × SType)) {f f' : Front} {x}, nameParams frontOps ps f = .ok x f' → Adds f f'
  | [], _, _, _, h => by cases h; exact .refl _
  | p :: ps, f, f', x, h => by
    obtain ⟨_, f1, h1, h⟩ := Act.ok_inv h
    obtain ⟨_, f2, h2, h⟩ := Act.ok_inv h
    cases h; exact (adds_type h1).trans (adds_params ps h2)

theorem adds_ret : ∀ {r : Option SType} {f f' : Front} {x}, nameRet frontOps r f = .ok x f' → Adds f f'
  | none, _, _, _, h => by cases h; exact .refl _
  | some ty, f, f', x, h => by
    obtain ⟨_, f1, h1, h⟩ := Act.ok_inv h
    cases h; exact adds_type h1

theorem adds_open {f f' : Front} {r} (h : openScope f = .ok r f') : Adds f f' := by
  cases h; exact ⟨rfl, rfl, rfl, rfl, 0, by simp⟩

theorem core_end (s : Int) (v : VarInfo) : (endScope s v).core = v.core := by
  unfold endScope; split <;> rfl

theorem updateFunc_inv {u : FuncInfo → FuncInfo} {f f' : Front} {r} (h : updateFunc u f = .ok r f') :
    ∃ i fi, f.currFunc = .at i ∧ f.syms[i]? = some (.func fi) ∧ f' = { f with syms := f.syms.set i (.func (u fi)) } := by
  unfold updateFunc at h
  cases hc : f.currFunc with
  | none => rw [hc] at h; cases h
  | dangling => rw [hc] at h; cases h
  | «at» i =>
    rw [hc] at h
    simp only at h
    cases hg : f.syms[i]? with
    | none => rw [hg] at h; cases h
    | some x =>
      rw [hg] at h
      cases x <;> simp only [reduceCtorEq] at h
      cases h
      exact ⟨i, _, rfl, hg, rfl⟩

theorem map_core_set {l : List Sym} {i : Nat} {x y : Sym} (h : l[i]? = some x) (e : y.core = x.core) :
    (l.set i y).map Sym.core = l.map Sym.core := by
  apply List.ext_getElem?
  intro j
  rw [List.map_set]
  by_cases hj : i = j
  · subst hj
    have := (List.getElem?_eq_some_iff.1 h).1
    obtain ⟨_, rfl⟩ := List.getElem?_eq_some_iff.1 h
    simp [e, this]
  · rw [List.getElem?_set_ne hj]

theorem adds_close {f f' : Front} {r} (h : closeScope f = .ok r f') : Adds f f' := by
  simp only [closeScope, act_bind, Act.get] at h
  cases hc : f.currFunc with
  | none => rw [hc] at h; cases h; exact ⟨rfl, rfl, rfl, rfl, 0, by simp⟩
  | dangling =>
    rw [hc] at h
    obtain ⟨_, f1, h1, h⟩ := Act.ok_inv h
    obtain ⟨i, fi, hi, -⟩ := updateFunc_inv h1
    rw [hc] at hi; cases hi
  | «at» j =>
    rw [hc] at h
    obtain ⟨_, f1, h1, h⟩ := Act.ok_inv h
    obtain ⟨i, fi, hi, hg, rfl⟩ := updateFunc_inv h1
    cases h
    refine ⟨rfl, rfl, rfl, rfl, 0, ?_⟩
    simp only [List.replicate_zero, List.append_nil]
    refine map_core_set hg ?_
    simp only [Sym.core, List.map_map]
    congr 2
    exact List.map_congr_left fun v _ => core_end _ v

theorem adds_require {b : Bool} {f f' : Front} {r} (h : requireFunc b f = .ok r f') :
    f' = f ∧ (f.currFunc != .none) = b := by
  simp only [requireFunc, act_bind, Act.get] at h
  split at h
  · cases h; exact ⟨rfl, by assumption⟩
  · cases h

theorem currentFunc_state {f f' : Front} {r} (h : currentFunc f = .ok r f') : f' = f := by
  unfold currentFunc at h
  split at h
  · cases h; rfl
  · cases h
  · split at h
    · cases h; rfl
    · cases h

theorem adds_value {f f' : Front} {r} (h : requireValueFunc f = .ok r f') : f' = f := by
  unfold requireValueFunc at h
  replace h := Act.ok_inv h
  obtain ⟨o, f1, h1, h⟩ := h
  have := currentFunc_state h1
  subst this
  split at h
  · cases h
  · cases h; rfl
  · cases h

theorem adds_top {f f' : Front} {r} (h : requireTopLevel f = .ok r f') : f' = f := by
  simp only [requireTopLevel, act_bind, Act.get] at h
  split at h
  · cases h
  · cases h; rfl

theorem core_updateStruct (n : Name) (d : Bool) (fs : List (Name × Tag)) : ∀ l : List Sym,
    (updateStruct n (.struct n d fs) l).map Sym.core = l.map Sym.core
  | [] => rfl
  | x :: xs => by
    unfold updateStruct
    split
    · rename_i h
      cases x <;> simp only [Sym.isStruct, Bool.false_eq_true] at h
      rfl
    · rw [List.map_cons, List.map_cons, core_updateStruct n d fs xs]

theorem adds_updateStruct (f : Front) (n : Name) (d : Bool) (fs : List (Name × Tag)) :
    Adds f { f with syms := updateStruct n (.struct n d fs) f.syms } :=
  ⟨rfl, rfl, rfl, rfl, 0, by simp [core_updateStruct]⟩

theorem adds_beginStruct {n : Name} {f f' : Front} {r} (h : beginStruct n f = .ok r f') : Adds f f' := by
  unfold beginStruct at h
  obtain ⟨_, f1, h1, h⟩ := Act.ok_inv h
  refine (adds_struct h1).trans ?_
  simp only [act_bind, Act.get] at h
  cases hs : f1.syms.findSome? (·.structInfo n) with
  | none => rw [hs] at h; cases h
  | some p =>
    rw [hs] at h
    obtain ⟨d, fs⟩ := p
    cases d with
    | true => cases h
    | false => cases h; exact adds_updateStruct _ _ _ _

theorem adds_checkField {n m : Name} {f f' : Front} {r} (h : checkField n m f = .ok r f') : Adds f f' := by
  simp only [checkField, act_bind, Act.get] at h
  cases hs : f.syms.findSome? (·.structInfo n) with
  | none => rw [hs] at h; cases h
  | some p =>
    rw [hs] at h
    obtain ⟨d, fs⟩ := p
    simp only at h
    split at h
    · cases h
    · split at h
      · cases h
      · cases h; exact .refl _

theorem adds_addField {n m : Name} {t : Tag} {f f' : Front} {r} (h : addField n m t f = .ok r f') : Adds f f' := by
  simp only [addField, act_bind, Act.get] at h
  cases hs : f.syms.findSome? (·.structInfo n) with
  | none => rw [hs] at h; cases h
  | some p => rw [hs] at h; cases h; exact adds_updateStruct _ _ _ _

theorem adds_endStruct {n : Name} {f f' : Front} {r} (h : endStruct n f = .ok r f') : Adds f f' := by
  simp only [endStruct, act_bind, Act.get] at h
  cases hs : f.syms.findSome? (·.structInfo n) with
  | none => rw [hs] at h; cases h
  | some p =>
    rw [hs] at h
    obtain ⟨d, fs⟩ := p
    simp only at h
    split at h
    · cases h
    · cases h; exact .refl _

theorem adds_fields (n : Name) : ∀ (fs : List (Name × SType)) {f f' : Front} {x}, nameFields frontOps n fs f = .ok x f' →
    Adds f f'
  | [], _, _, _, h => by cases h; exact .refl _
  | p :: ps, f, f', x, h => by
    obtain ⟨_, f1, h1, h⟩ := Act.ok_inv h
    obtain ⟨_, f2, h2, h⟩ := Act.ok_inv h
    obtain ⟨_, f3, h3, h⟩ := Act.ok_inv h
    obtain ⟨_, f4, h4, h⟩ := Act.ok_inv h
    cases h
    exact (((adds_checkField h1).trans (adds_type h2)).trans (adds_addField h3)).trans (adds_fields n ps h4)

/-! ## Declarations -/

theorem tagIn_push {l : List Sym} {x : Sym} {d : Place} {t : Option Tag} (h : tagIn l d = some t) :
    tagIn (l ++ [x]) d = some t := by
  have : ∀ (i : Nat) (y : Sym), l[i]? = some y → (l ++ [x])[i]? = some y := fun i y hy => by
    rw [List.getElem?_append_left (List.getElem?_eq_some_iff.1 hy).1]; exact hy
  obtain ⟨c, r⟩ := d
  cases r with
  | glob i =>
    simp only [tagIn] at h ⊢
    cases hi : l[i]? with
    | none => rw [hi] at h; cases h
    | some y => rw [this i y hi]; rw [hi] at h; exact h
  | loc i =>
    cases c with
    | «at» j =>
      simp only [tagIn] at h ⊢
      cases hi : l[j]? with
      | none => rw [hi] at h; cases h
      | some y => rw [this j y hi]; rw [hi] at h; exact h
    | none => cases h
    | dangling => cases h
  | arg i => cases c <;> cases h

/-- A new symbol. -/
theorem CoreOk.push {l : List Sym} {a b c a' b' : Nat} (h : CoreOk l a b c) {x : Sym} (ha : a ≤ a') (hb : b ≤ b')
    (hg : ∀ i, x.globIdx = some i → i = a ∧ a < a') (hf : ∀ i, x.funcIdx = some i → i = b ∧ b < b')
    (hx : x.foreignIdx = none)
    (hi : ∀ f, x = .func f → (∀ (k : Nat) v, f.args[k]? = some v → v.idx = -(f.args.length : Int) + (k : Int)) ∧
      (∀ (k : Nat) v, f.locals[k]? = some v → v.idx = (k : Int)) ∧ (∀ v ∈ f.args, v.tag.isSome = true) ∧
      f.ret.isSome = true)
    (hc : ∀ n t c, x = .const n t c → t = constTag c) : CoreOk (l ++ [x]) a' b' c := by
  have e : ∀ {α : Type} (g : Sym → Option α), (l ++ [x]).filterMap g = l.filterMap g ++ (g x).toList := by
    intro α g
    rw [List.filterMap_append]
    cases h : g x <;> simp [h]
  have hm : ∀ {y : Sym}, y ∈ l ++ [x] → y ∈ l ∨ x = y := by
    intro y hy
    rcases List.mem_append.1 hy with h | h
    · exact .inl h
    · exact .inr (List.mem_singleton.1 h).symm
  constructor
  · rw [e]
    cases h' : x.globIdx with
    | none => simpa using h.globs
    | some i => exact pairwise_push h.globs fun j hj => by rw [(hg i h').1]; exact (h.globBound j hj).2
  · rw [e]
    intro i hi
    rcases List.mem_append.1 hi with hi | hi
    · have := h.globBound i hi; omega
    · have := hg i (by simpa using hi); omega
  · rw [e]
    cases h' : x.funcIdx with
    | none => simpa using h.funcs
    | some i => exact pairwise_push h.funcs fun j hj => by rw [(hf i h').1]; exact h.funcBound j hj
  · rw [e]
    intro i hi
    rcases List.mem_append.1 hi with hi | hi
    · have := h.funcBound i hi; omega
    · have := hf i (by simpa using hi); omega
  · rw [e, hx]; simpa using h.foreigns
  · rw [e, hx]; simpa using h.foreignBound
  · intro f hf
    rcases hm hf with hf | hf
    · exact h.args f hf
    · exact (hi f hf).1
  · intro f hf
    rcases hm hf with hf | hf
    · exact h.locals f hf
    · exact (hi f hf).2.1
  · intro n t c hf
    rcases hm hf with hf | hf
    · exact h.consts n t c hf
    · exact hc n t c hf
  · intro f hf
    rcases hm hf with hf | hf
    · exact h.tags f hf
    · exact (hi f hf).2.2.1
  · intro f hf
    rcases hm hf with hf | hf
    · exact h.rets f hf
    · exact (hi f hf).2.2.2

theorem coreOk_const {l : List Sym} {a b c : Nat} (h : CoreOk l a b c) {t : Tag} {v : ConstVal} (ht : t = constTag v) :
    CoreOk (l ++ [.const [] t v]) a b c :=
  h.push (Nat.le_refl _) (Nat.le_refl _) (by simp [Sym.globIdx]) (by simp [Sym.funcIdx]) rfl (by simp) (by
    intro n t' c' e
    cases e
    exact ht)

theorem lit_const (l : Lit Nat) : l.const.1 = constTag l.const.2 := by cases l <;> rfl

theorem step_const {n : Name} {l : Lit Nat} {f f' : Front} {r} (h : declareConst n l.const.1 l.const.2 f = .ok r f') :
    Step f f' [] := by
  unfold declareConst at h
  obtain ⟨o, f1, h1, h⟩ := Act.ok_inv h
  rw [referenceVariable_state h1] at h
  cases o with
  | some _ => cases h
  | none =>
    cases h
    refine ⟨fun ht => ?_, rfl, fun d t h => ?_, List.nodup_nil, by simp, by simp⟩
    · rw [tables_core] at ht ⊢
      simpa [Sym.core] using coreOk_const ht (lit_const l)
    · unfold tagOf at h ⊢
      simp only [List.map_append, List.map_cons, List.map_nil]
      exact tagIn_push h

theorem coreOk_glob {l : List Sym} {a b c : Nat} (h : CoreOk l a b c) (t : Option Tag) :
    CoreOk (l ++ [.glob { name := [], idx := a, tag := t }]) (a + 1) b c :=
  h.push (Nat.le_succ _) (Nat.le_refl _) (by
    intro i hi
    simp only [Sym.globIdx, Option.some.injEq] at hi
    omega) (by simp [Sym.funcIdx]) rfl (by simp) (by simp)

theorem tagIn_set_func {l : List Sym} {j : Nat} {fi fi' : FuncInfo} (hj : l[j]? = some (.func fi))
    (hl : ∀ (k : Nat) v, fi.locals[k]? = some v → fi'.locals[k]?.map VarInfo.tag = some v.tag) {d : Place} {t : Option Tag} (h : tagIn l d = some t) :
    tagIn (l.set j (.func fi')) d = some t := by
  have hlt := (List.getElem?_eq_some_iff.1 hj).1
  obtain ⟨c, r⟩ := d
  cases r with
  | glob i =>
    simp only [tagIn] at h ⊢
    by_cases e : j = i
    · subst e; rw [hj] at h; cases h
    · rw [List.getElem?_set_ne e]; exact h
  | loc i =>
    cases c with
    | «at» j' =>
      simp only [tagIn] at h ⊢
      by_cases e : j = j'
      · subst e
        rw [hj] at h
        simp only [Option.map_eq_some_iff] at h
        obtain ⟨v, hv, rfl⟩ := h
        simp only [List.getElem?_set_self hlt]
        exact hl i v hv
      · rw [List.getElem?_set_ne e]; exact h
    | none => cases h
    | dangling => cases h
  | arg i => cases c <;> cases h

theorem coreOk_set {l : List Sym} {a b c : Nat} (h : CoreOk l a b c) {j : Nat} {fi fi' : FuncInfo}
    (hj : l[j]? = some (.func fi)) (e1 : fi'.index = fi.index) (e2 : fi'.args = fi.args) (e3 : fi'.ret = fi.ret)
    (hl : ∀ (k : Nat) v, fi'.locals[k]? = some v → v.idx = k) : CoreOk (l.set j (.func fi')) a b c := by
  have hm := List.mem_of_getElem? hj
  have hmap : ∀ {β : Type} (f : Sym → Option β), f (.func fi') = f (.func fi) →
      (l.set j (.func fi')).filterMap f = l.filterMap f := by
    intro β f e
    apply filterMap_eq_of_map
    obtain ⟨hlt, hs⟩ := List.getElem?_eq_some_iff.1 hj
    apply List.ext_getElem?
    intro i
    simp only [List.getElem?_map, List.getElem?_set]
    by_cases hi : j = i
    · subst hi; simp [hlt, hs, e]
    · simp [hi]
  have hx : ∀ f, .func f ∈ l.set j (.func fi') → f = fi' ∨ .func f ∈ l := by
    intro f hf
    rcases List.mem_or_eq_of_mem_set hf with hf | hf
    · exact .inr hf
    · simp only [Sym.func.injEq] at hf; exact .inl hf
  obtain ⟨a, b, c, d, f, g, i, k, n, m, o⟩ := h
  refine ⟨by rwa [hmap _ rfl], by rw [hmap _ rfl]; exact b, by rwa [hmap _ (by simp [Sym.funcIdx, e1])],
    by rw [hmap _ (by simp [Sym.funcIdx, e1])]; exact d, by rwa [hmap _ rfl], by rw [hmap _ rfl]; exact g, ?_, ?_, ?_, ?_, ?_⟩
  · intro f hf
    rcases hx f hf with rfl | hf
    · rw [e2]; exact i _ hm
    · exact i f hf
  · intro f hf
    rcases hx f hf with rfl | hf
    · exact hl
    · exact k f hf
  · intro n' t c hc
    rcases List.mem_or_eq_of_mem_set hc with hc | hc
    · exact n _ _ _ hc
    · cases hc
  · intro f hf
    rcases hx f hf with rfl | hf
    · rw [e2]; exact m _ hm
    · exact m f hf
  · intro f hf
    rcases hx f hf with rfl | hf
    · rw [e3]; exact o _ hm
    · exact o f hf

/-- What a declaration does to the core: a new global, or a new local of the current function, with the type. -/
inductive Declares (f f' : Front) (t : Option Tag) : Option SymRef → Prop
  | glob {k} : f'.currFunc = f.currFunc → f.currFunc = .none → f'.numGlobalVars = f.numGlobalVars + 1 → f'.numFunctions = f.numFunctions →
      f'.numForeign = f.numForeign →
      f'.syms.map Sym.core = f.syms.map Sym.core ++ [.glob { name := [], idx := f.numGlobalVars, tag := t }] ++
        List.replicate k neutral →
      Declares f f' t (some (.glob f.syms.length))
  | loc {k j fi} : f'.currFunc = f.currFunc → f.currFunc = .at j → f'.numGlobalVars = f.numGlobalVars → f'.numFunctions = f.numFunctions →
      f'.numForeign = f.numForeign → (f.syms.map Sym.core)[j]? = some (.func fi) →
      f'.syms.map Sym.core = (f.syms.map Sym.core).set j (.func { fi with
        locals := fi.locals ++ [{ name := [], idx := fi.locals.length, tag := t }] }) ++ List.replicate k neutral →
      Declares f f' t (some (.loc fi.locals.length))

theorem declareVar_inv {n : Name} {f f' : Front} {r} (h : declareVar n f = .ok r f') : Declares f f' none r := by
  simp only [declareVar, act_bind, Act.get] at h
  by_cases hc : (f.currFunc != .none) = true
  · rw [if_pos hc] at h
    obtain ⟨k, f1, h1, h⟩ := Act.ok_inv h
    cases h
    unfold declareLocal at h1
    obtain ⟨o, f2, h2, h1⟩ := Act.ok_inv h1
    have := currentFunc_state h2
    subst this
    cases o with
    | none => cases h1
    | some fi =>
      simp only at h1
      split at h1
      · cases h1
      · simp only [act_bind, Act.get] at h1
        obtain ⟨u, f3, h3, h1⟩ := Act.ok_inv h1
        cases h1
        obtain ⟨i, gi, hi, hg, rfl⟩ := updateFunc_inv h3
        have : gi = fi := by
          simp only [currentFunc, hi, hg, Out.ok.injEq, Option.some.injEq, and_true] at h2
          exact h2
        subst this
        have e : gi.locals.length = (gi.locals.map VarInfo.core).length := by simp
        rw [e]
        let ci : FuncInfo := { name := [], index := gi.index, args := gi.args.map VarInfo.core,
                               locals := gi.locals.map VarInfo.core, ret := gi.ret }
        refine Declares.loc (f := f2) (k := 0) (j := i) (fi := ci) rfl hi rfl rfl rfl ?_ ?_
        · rw [List.getElem?_map, hg]; rfl
        · rw [List.map_set]
          simp [Sym.core, VarInfo.core, ci]
  · rw [if_neg hc] at h
    have hc : f.currFunc = .none := by simpa using hc
    obtain ⟨k, f1, h1, h⟩ := Act.ok_inv h
    cases h
    unfold declareGlobalVar at h1
    obtain ⟨o, f2, h2, h1⟩ := Act.ok_inv h1
    rw [referenceVariable_state h2] at h1
    split at h1
    · cases h1
    · cases h1
      exact Declares.glob (k := 0) rfl hc rfl rfl rfl (by simp [Sym.core, VarInfo.core])

theorem modify_last {α : Type} (f : α → α) (x : α) : ∀ l : List α, (l ++ [x]).modify l.length f = l ++ [f x]
  | [] => by simp
  | y :: ys => by simp [modify_last f x ys]

theorem Declares.adds {f g h : Front} {t : Option Tag} {v : Option SymRef} (a : Declares f g t v) (b : Adds g h) :
    Declares f h t v := by
  obtain ⟨j, hj⟩ := b.syms
  cases a with
  | @glob k h1 h2 h3 h4 h5 h6 =>
    exact .glob (k := k + j) (b.cur.trans h1) h2 (b.nG.trans h3) (b.nF.trans h4) (b.nX.trans h5) (by
      rw [hj, h6]; simp [List.replicate_append_replicate])
  | @loc k i fi h1 h2 h3 h4 h5 h6 h7 =>
    exact .loc (k := k + j) (b.cur.trans h1) h2 (b.nG.trans h3) (b.nF.trans h4) (b.nX.trans h5) h6 (by
      rw [hj, h7]; simp [List.replicate_append_replicate])

theorem setVarTag_inv {f g f' : Front} {v : Option SymRef} {t : Tag} {u} (hd : Declares f g none v)
    (h : setVarTag v t g = .ok u f') : Declares f f' (some t) v := by
  cases hd with
  | @glob n h1 h2 h3 h4 h5 h6 =>
    have e : (g.syms.map Sym.core)[f.syms.length]? = some (.glob { name := [], idx := f.numGlobalVars, tag := none }) := by
      rw [h6, List.append_assoc, List.getElem?_append_right (by simp)]; simp
    simp only [List.getElem?_map, Option.map_eq_some_iff] at e
    obtain ⟨x, hx, e⟩ := e
    obtain ⟨w, rfl, e'⟩ := core_glob e
    have e1 : (f.numGlobalVars : Int) = w.idx := congrArg VarInfo.idx e'
    simp only [setVarTag, hx] at h
    cases h
    refine .glob (k := n) h1 h2 h3 h4 h5 ?_
    simp only [List.map_set, h6, List.append_assoc]
    rw [List.set_append_right _ _ (by simp)]
    simp [Sym.core, VarInfo.core, e1]
  | @loc n j fi h1 h2 h3 h4 h5 h6 h7 =>
    unfold setVarTag at h
    obtain ⟨i, gi, hi, hg, rfl⟩ := updateFunc_inv h
    rw [h1, h2] at hi
    cases hi
    have hlt := (List.getElem?_eq_some_iff.1 h6).1
    have e : (g.syms.map Sym.core)[j]? = some (Sym.func gi).core := by rw [List.getElem?_map, hg]; rfl
    rw [h7, List.getElem?_append_left (by simpa using hlt), List.getElem?_set_self hlt] at e
    simp only [Sym.core, Option.some.injEq, Sym.func.injEq, FuncInfo.mk.injEq] at e
    obtain ⟨a1, a2, a3, a4, a5⟩ := e
    refine Declares.loc (f := f) (k := n) (j := j) (fi := fi) h1 h2 h3 h4 h5 h6 ?_
    simp only [List.map_set, h7]
    rw [List.set_append_left _ _ (by simpa using hlt), List.set_set]
    congr 2
    simp only [Sym.core, Sym.func.injEq, FuncInfo.mk.injEq]
    refine ⟨a1.symm, a2.symm, a3.symm, ?_, a5.symm⟩
    have em : ∀ (k : Nat) (l : List VarInfo), (l.modify k fun v => { v with tag := some t }).map VarInfo.core =
        (l.map VarInfo.core).modify k fun v => { v with tag := some t } := by
      intro k l
      induction l generalizing k with
      | nil => cases k <;> simp
      | cons x xs ih => cases k <;> simp [VarInfo.core, ih]
    rw [em, ← a4]
    rw [modify_last]

theorem Declares.step {f f' : Front} {t : Option Tag} {r : Option SymRef} (h : Declares f f' t r) :
    ∃ x, r = some x ∧ (∀ k, x ≠ .arg k) ∧ tagOf f (place f.currFunc x) = none ∧
      tagOf f' (place f.currFunc x) = some t ∧ (Tables f → Tables f') ∧ f'.currFunc = f.currFunc ∧
      ∀ d t, tagOf f d = some t → tagOf f' d = some t := by
  cases h with
  | @glob n h1 h2 h3 h4 h5 h6 =>
    refine ⟨_, rfl, by simp, ?_, ?_, fun ht => ?_, h1, fun d t' hd => ?_⟩
    · simp [tagOf, tagIn, place]
    · simp [tagOf, tagIn, place, h6]
    · rw [tables_core] at ht ⊢
      rw [h6, h3, h4, h5]
      exact (coreOk_glob ht t).neutral n
    · unfold tagOf at hd ⊢
      rw [h6, tagIn_neutral]
      exact tagIn_push hd
  | @loc n j fi h1 h2 h3 h4 h5 h6 h7 =>
    have hlt := (List.getElem?_eq_some_iff.1 h6).1
    refine ⟨_, rfl, by simp, ?_, ?_, fun ht => ?_, h1, fun d t' hd => ?_⟩
    · simp only [tagOf, place, h2, tagIn, h6]
      simp
    · simp only [tagOf, place, h7, tagIn_neutral]
      simp only [h2, tagIn, List.getElem?_set_self hlt]
      simp
    · rw [tables_core] at ht ⊢
      rw [h7, h3, h4, h5]
      let fi' : FuncInfo := { fi with locals := fi.locals ++ [{ name := [], idx := fi.locals.length, tag := t }] }
      refine CoreOk.neutral (coreOk_set (fi' := fi') ht h6 rfl rfl rfl fun k v hv => ?_) n
      simp only [fi'] at hv
      by_cases hk : k < fi.locals.length
      · rw [List.getElem?_append_left hk] at hv
        exact ht.locals fi (List.mem_of_getElem? h6) k v hv
      · rw [List.getElem?_append_right (by omega)] at hv
        have : k - fi.locals.length = 0 := by
          refine Nat.eq_zero_of_not_pos fun hp => ?_
          rw [List.getElem?_eq_none (by simp; omega)] at hv
          cases hv
        rw [this] at hv
        simp only [List.getElem?_cons_zero, Option.some.injEq] at hv
        subst hv
        show (fi.locals.length : Int) = k
        omega
    · unfold tagOf at hd ⊢
      rw [h7, tagIn_neutral]
      refine tagIn_set_func h6 (fun k v hv => ?_) hd
      rw [List.getElem?_append_left (List.getElem?_eq_some_iff.1 hv).1, hv]
      rfl

/-! ## Functions -/

/-- The table while a function header is read: the new function is where it was put. -/
structure Header (f g : Front) (fi : FuncInfo) : Prop where
  cur : g.currFunc = .at f.syms.length
  nG : g.numGlobalVars = f.numGlobalVars
  nF : g.numFunctions = f.numFunctions + 1
  nX : g.numForeign = f.numForeign
  syms : ∃ k, g.syms.map Sym.core = f.syms.map Sym.core ++ .func fi :: List.replicate k neutral

theorem Header.adds {f g h : Front} {fi : FuncInfo} (a : Header f g fi) (b : Adds g h) : Header f h fi := by
  obtain ⟨k, hk⟩ := a.syms
  obtain ⟨j, hj⟩ := b.syms
  exact ⟨b.cur.trans a.cur, b.nG.trans a.nG, b.nF.trans a.nF, b.nX.trans a.nX, k + j, by
    rw [hj, hk]; simp [List.replicate_append_replicate]⟩

theorem Header.func {f g : Front} {fi : FuncInfo} (a : Header f g fi) :
    ∃ gi, g.syms[f.syms.length]? = some (.func gi) ∧ (Sym.func gi).core = .func fi := by
  obtain ⟨k, hk⟩ := a.syms
  have : (g.syms.map Sym.core)[f.syms.length]? = some (.func fi) := by
    rw [hk, List.getElem?_append_right (by simp)]; simp
  simp only [List.getElem?_map, Option.map_eq_some_iff] at this
  obtain ⟨x, hx, e⟩ := this
  obtain ⟨gi, rfl, -⟩ := core_func e
  exact ⟨gi, hx, e⟩

theorem Header.set {f g : Front} {fi gi fj : FuncInfo} (a : Header f g fi) (e : (Sym.func gi).core = .func fj) :
    Header f { g with syms := g.syms.set f.syms.length (.func gi) } fj := by
  obtain ⟨k, hk⟩ := a.syms
  refine ⟨a.cur, a.nG, a.nF, a.nX, k, ?_⟩
  simp only [List.map_set, hk, e]
  rw [List.set_append_right _ _ (by simp)]
  simp

theorem newArgs_core (nargs : Nat) : ∀ (start : Nat) (as : List (Name × Tag)),
    ∀ v ∈ newArgs nargs start as, v.tag.isSome = true
  | _, [], v, h => by simp [newArgs] at h
  | start, a :: as, v, h => by
    simp only [newArgs, List.mem_cons] at h
    rcases h with rfl | h
    · rfl
    · exact newArgs_core nargs (start + 1) as v h

theorem Header.params {f g h : Front} {n : Nat} (a : Header f g { name := [], index := n }) {ps : List (Name × Tag)} {u}
    (e : declareArguments ps.length ps g = .ok u h) :
    Header f h { name := [], index := n, args := (newArgs ps.length 0 ps).map VarInfo.core } := by
  obtain ⟨gi, hg, hc⟩ := a.func
  simp only [Sym.core, Sym.func.injEq, FuncInfo.mk.injEq, List.map_eq_nil_iff, true_and] at hc
  obtain ⟨c1, c2, c3, c4⟩ := hc
  have hd := declareArgs ps.length ps g _ gi a.cur hg
  by_cases hn : (gi.args.map VarInfo.name ++ ps.map Prod.fst).Nodup
  · rw [hd.1 hn] at e
    cases e
    refine a.set ?_
    simp [Sym.core, c1, c2, c3, c4]
  · obtain ⟨s', hs⟩ := hd.2 (by simp [c2]) hn
    rw [hs] at e
    cases e

theorem Header.ret {f g h : Front} {fi : FuncInfo} (a : Header f g fi) {t : Option Tag} {u}
    (e : updateFunc (fun fi => { fi with ret := t }) g = .ok u h) : Header f h { fi with ret := t } := by
  obtain ⟨i, gi, hi, hg, rfl⟩ := updateFunc_inv e
  rw [a.cur] at hi
  cases hi
  obtain ⟨gj, hg', hc⟩ := a.func
  rw [hg] at hg'
  cases hg'
  refine a.set ?_
  rw [show Sym.func { fi with ret := t } = Sym.func { fi with ret := t } from rfl]
  simp only [Sym.core, Sym.func.injEq] at hc ⊢
  rw [← hc]

theorem Header.enter {f g : Front} {n : Nat} {ps : List (Name × Tag)} {t : Tag} (hn : n = f.numFunctions)
    (a : Header f g { name := [], index := n, args := (newArgs ps.length 0 ps).map VarInfo.core, ret := some t }) :
    (Tables f → Tables g) ∧ ∀ d t, tagOf f d = some t → tagOf g d = some t := by
  obtain ⟨k, hk⟩ := a.syms
  rw [← List.singleton_append, ← List.append_assoc] at hk
  constructor
  · intro ht
    rw [tables_core] at ht ⊢
    rw [hk, a.nG, a.nF, a.nX]
    refine CoreOk.neutral (ht.push (Nat.le_refl _) (Nat.le_succ _) (by simp [Sym.globIdx]) ?_ rfl ?_ (by simp)) k
    · intro i hi
      simp only [Sym.funcIdx, Option.some.injEq] at hi
      omega
    · intro fi e
      cases e
      refine ⟨fun k v hv => ?_, by simp, fun v hv => ?_, rfl⟩
      · simp only [List.getElem?_map, Option.map_eq_some_iff] at hv
        obtain ⟨u, hu, rfl⟩ := hv
        have := newArgs_idx _ _ _ _ _ hu
        simp only [VarInfo.core, List.length_map, newArgs_length]
        omega
      · obtain ⟨u, hu, rfl⟩ := List.mem_map.1 hv
        exact newArgs_core _ _ _ u hu
  · intro d t hd
    unfold tagOf at hd ⊢
    rw [hk, tagIn_neutral]
    exact tagIn_push hd

/-! ## Statements -/

mutual
/-- Only declarations without a type are written `:=` (the grammar says so). -/
def Plain : SStmt → Prop
  | .node _ s => Plain s
  | .block ss => Plains ss
  | .assign op ann _ _ => ann.isSome = true → op ≠ .declare
  | .proc _ _ _ _ b => Plain b
  | .ifThen _ b => Plain b
  | .ifElse _ b a => Plain b ∧ Plain a
  | .while _ b => Plain b
  | .for i _ s b => Plain i ∧ Plain s ∧ Plain b
  | _ => True
/-- See `Plain`. -/
def Plains : List SStmt → Prop
  | [] => True
  | s :: ss => Plain s ∧ Plains ss
end

mutual
theorem plain_stmt : ∀ {s : SStmt} {us : List Tk} {nx : Tk}, StmtIs s us nx → Plain s
  | _, _, _, .block _ h _ => by simpa [Plain] using plain_stmts h
  | _, _, _, .func _ _ _ _ _ h => by simpa [Plain] using plain_stmt h
  | _, _, _, .ifThen _ _ _ h _ => by simpa [Plain] using plain_stmt h
  | _, _, _, .ifElse _ _ _ h _ k => by simpa [Plain] using ⟨plain_stmt h, plain_stmt k⟩
  | _, _, _, .while _ _ _ h => by simpa [Plain] using plain_stmt h
  | _, _, _, .for _ h _ _ _ k l => by simpa [Plain] using ⟨plain_stmt h, plain_stmt k, plain_stmt l⟩
  | _, _, _, .retNone _ _ => by simp [Plain]
  | _, _, _, .ret _ _ _ => by simp [Plain]
  | _, _, _, .brk _ => by simp [Plain]
  | _, _, _, .cont _ => by simp [Plain]
  | _, _, _, .use _ _ _ _ _ => by simp [Plain]
  | _, _, _, .call _ _ => by simp [Plain]
  | _, _, _, .declare _ _ _ _ => by simp [Plain]
  | _, _, _, .typed _ _ _ _ _ _ => by simp [Plain]
  | _, _, _, .assign _ _ _ _ _ _ _ _ _ => by simp [Plain]
theorem plain_stmts : ∀ {ss : List SStmt} {us : List Tk} {nx : Tk}, StmtsAre ss us nx → Plains ss
  | _, _, _, .nil => trivial
  | _, _, _, .cons h k => ⟨plain_stmt h, plain_stmts k⟩
end

theorem plain_prog : ∀ {ss : List SStmt} {us : List Tk} {nx : Tk}, ProgIs ss us nx → Plains ss
  | _, _, _, .nil _ => trivial
  | _, _, _, .stmt h k => ⟨plain_stmt h, plain_prog k⟩
  | _, _, _, .struct _ _ _ _ _ k => ⟨by simp [Plain], plain_prog k⟩

theorem step_decl {op : Tok} {ann : Option SType} {n : Name} {e : SExpr} {f f' : Front} {x : CStmt}
    (hp : ann.isSome = true → op ≠ .declare) (h : nameDecl frontOps op ann n e f = .ok x f')
    (ho : ann = none → op = .declare) :
    Step f f' (pdecls f.currFunc x) ∧ DeclaresOwn x := by
  unfold nameDecl at h
  obtain ⟨_, f1, h1, h⟩ := Act.ok_inv h
  obtain ⟨v, f2, h2, h⟩ := Act.ok_inv h
  rw [referenceVariable_state h1] at h2
  replace h2 := declareVar_inv h2
  cases ann with
  | none =>
    obtain ⟨y, f3, h3, h⟩ := Act.ok_inv h
    cases h
    have := ho rfl
    subst this
    obtain ⟨r, rfl, d1, d2, d3, d4, d5, d6⟩ := h2.step
    have st : Step f f2 [place f.currFunc r] := by
      refine ⟨d4, d5, d6, by simp, ?_, ?_⟩
      · intro d hd; rw [List.mem_singleton.1 hd]; exact d2
      · intro d hd; rw [List.mem_singleton.1 hd]; exact d3
    have := st.trans (adds_expr e h3).step
    rw [List.append_nil] at this
    refine ⟨by simpa [pdecls] using this, ?_⟩
    simp only [DeclaresOwn]
    intro _ m k he
    cases he
    exact d1 k rfl
  | some ty =>
    obtain ⟨t, f3, h3, h⟩ := Act.ok_inv h
    obtain ⟨u, f4, h4, h⟩ := Act.ok_inv h
    obtain ⟨y, f5, h5, h⟩ := Act.ok_inv h
    cases h
    have hop := hp rfl
    obtain ⟨r, rfl, d1, d2, d3, d4, d5, d6⟩ := (setVarTag_inv (h2.adds (adds_type h3)) h4).step
    have st : Step f f4 [] := ⟨d4, d5, d6, by simp, by simp, by simp⟩
    have st := st.trans (adds_expr e h5).step
    refine ⟨?_, ?_⟩
    · have : pdecls f.currFunc (.assign op (some t) (.id n (some r)) y) = [] := by
        unfold pdecls
        split <;> simp_all
      rw [this]
      exact st
    · simp only [DeclaresOwn]
      exact fun h => absurd h hop

theorem step_assign {op : Tok} {l e : SExpr} {f f' : Front} {x : CStmt} (h : nameAssign frontOps op l e f = .ok x f')
    (ho : ∀ n u, op = .declare → l ≠ .id n u) : Step f f' (pdecls f.currFunc x) ∧ DeclaresOwn x := by
  unfold nameAssign at h
  obtain ⟨l', f1, h1, h⟩ := Act.ok_inv h
  obtain ⟨e', f2, h2, h⟩ := Act.ok_inv h
  have st := ((adds_expr l h1).trans (adds_expr e h2)).step
  have hid : op = .declare → ∀ n r, l' ≠ .id n r := by
    intro hop n r hl
    subst hl
    cases l <;> try (first | (obtain ⟨_, _, _, h1⟩ := Act.ok_inv h1; cases h1; done) | (cases h1; done))
    · exact ho _ _ hop rfl
    · obtain ⟨_, _, _, h1⟩ := Act.ok_inv h1
      obtain ⟨_, _, _, h1⟩ := Act.ok_inv h1
      cases h1
    · obtain ⟨_, _, _, h1⟩ := Act.ok_inv h1
      obtain ⟨_, _, _, h1⟩ := Act.ok_inv h1
      cases h1
    · obtain ⟨_, _, _, h1⟩ := Act.ok_inv h1
      obtain ⟨_, _, _, h1⟩ := Act.ok_inv h1
      cases h1
    · obtain ⟨_, _, _, h1⟩ := Act.ok_inv h1
      obtain ⟨_, _, _, h1⟩ := Act.ok_inv h1
      cases h1
    · obtain ⟨_, _, _, h1⟩ := Act.ok_inv h1
      obtain ⟨_, _, _, h1⟩ := Act.ok_inv h1
      obtain ⟨_, _, _, h1⟩ := Act.ok_inv h1
      cases h1
  have hx : pdecls f.currFunc (.assign op none l' e' : CStmt) = [] := by
    unfold pdecls
    split <;> simp_all
  have hy : DeclaresOwn (.assign op none l' e') := by
    simp only [DeclaresOwn]
    exact fun hop n k => hid hop n _
  have key : ∀ (y : CStmt) (g : Front), y = .assign op none l' e' → Step f g [] → Step f g (pdecls f.currFunc y) ∧ DeclaresOwn y := by
    rintro y g rfl hg
    rw [hx]
    exact ⟨hg, hy⟩
  generalize e'.lit = q at h
  split at h
  · obtain ⟨_, f3, h3, h⟩ := Act.ok_inv h
    cases h
    exact key _ _ rfl (st.trans (step_const h3))
  · cases h
    exact key _ _ rfl st

theorem requireFalse {f f' : Front} {u} (h : requireFunc false f = .ok u f') : f' = f ∧ f.currFunc = .none := by
  obtain ⟨h1, h2⟩ := adds_require h
  exact ⟨h1, by simpa using h2⟩

mutual
/-- What reading a statement does to the table. -/
theorem step_stmt : ∀ (s : SStmt) {f f' : Front} {x : CStmt}, Plain s → nameStmt frontOps s f = .ok x f' →
    Step f f' (pdecls f.currFunc x) ∧ DeclaresOwn x
  | .node line s, f, f', x, hp, h => by
    unfold nameStmt at h
    obtain ⟨y, f1, h1, h⟩ := Act.ok_inv h
    cases h
    simpa [pdecls, DeclaresOwn] using step_stmt s (by simpa [Plain] using hp) h1
  | .call g args, f, f', x, hp, h => by
    unfold nameStmt at h
    obtain ⟨y, f1, h1, h⟩ := Act.ok_inv h
    cases h
    simpa [pdecls, DeclaresOwn] using (adds_exprs args h1).step
  | .block ss, f, f', x, hp, h => by
    unfold nameStmt at h
    obtain ⟨_, f1, h1, h⟩ := Act.ok_inv h
    obtain ⟨y, f2, h2, h⟩ := Act.ok_inv h
    obtain ⟨_, f3, h3, h⟩ := Act.ok_inv h
    cases h
    have a := adds_open h1
    obtain ⟨b, c⟩ := step_stmts ss (by simpa [Plain] using hp) h2
    have := (a.step.trans b).trans (adds_close h3).step
    rw [a.cur, List.nil_append, List.append_nil] at this
    simpa [pdecls, DeclaresOwn] using ⟨this, c⟩
  | .assign op (some ty) (.id n _) r, f, f', x, hp, h => by
    unfold nameStmt at h
    simp only [Plain] at hp
    exact step_decl hp h (by simp)
  | .assign .declare none (.id n _) r, f, f', x, hp, h => by
    unfold nameStmt at h
    exact step_decl (by simp) h (by simp)
  | .proc _ n ps r b, f, f', x, hp, h => by
    unfold nameStmt at h
    replace h := Act.ok_inv h
    obtain ⟨_, f0, h0, h⟩ := h
    replace h0 := requireFalse h0
    obtain ⟨h00, hcur⟩ := h0
    subst h00
    replace h := Act.ok_inv h
    obtain ⟨i, f1, h1, h⟩ := h
    obtain ⟨ps', f2, h2, h⟩ := Act.ok_inv h
    obtain ⟨_, f3, h3, h⟩ := Act.ok_inv h
    obtain ⟨r', f4, h4, h⟩ := Act.ok_inv h
    obtain ⟨_, f5, h5, h⟩ := Act.ok_inv h
    obtain ⟨_, f6, h6, h⟩ := Act.ok_inv h
    obtain ⟨b', f7, h7, h⟩ := Act.ok_inv h
    obtain ⟨_, f8, h8, h⟩ := Act.ok_inv h
    obtain ⟨_, f9, h9, h⟩ := Act.ok_inv h
    cases h
    cases h9
    have hh : i = f0.syms.length ∧ Header f0 f1 { name := [], index := f0.numFunctions } := by
      cases h1
      exact ⟨rfl, rfl, rfl, rfl, rfl, 0, by simp [Sym.core]⟩
    obtain ⟨rfl, hh⟩ := hh
    have hh := ((((hh.adds (adds_params ps h2)).params h3).adds (adds_ret h4)).ret h5).adds (adds_open h6)
    obtain ⟨ht, hg⟩ := Header.enter rfl hh
    obtain ⟨c, d⟩ := step_stmt b (by simpa [Plain] using hp) h7
    have c := c.trans (adds_close h8).step
    rw [List.append_nil, hh.cur] at c
    refine ⟨⟨fun hf => ?_, hcur.symm, fun p t hp => ?_, ?_, ?_, ?_⟩, by simpa [DeclaresOwn] using d⟩
    · exact tables_enter (c.tables (ht hf)) _
    · exact c.grow p t (hg p t hp)
    · simpa [pdecls] using c.nodup
    · intro p hp
      simp only [pdecls] at hp
      cases he : tagOf f0 p with
      | none => rfl
      | some t =>
        have h1 := hg p t he
        rw [c.new p hp] at h1
        cases h1
    · intro p hp
      simp only [pdecls] at hp
      exact c.untagged p hp
  | .ifThen c b, f, f', x, hp, h => by
    unfold nameStmt at h
    obtain ⟨c', f1, h1, h⟩ := Act.ok_inv h
    obtain ⟨b', f2, h2, h⟩ := Act.ok_inv h
    cases h
    have a := adds_expr c h1
    obtain ⟨k, d⟩ := step_stmt b (by simpa [Plain] using hp) h2
    rw [a.cur] at k
    simpa [pdecls, DeclaresOwn] using ⟨a.step.trans k, d⟩
  | .ifElse c b e, f, f', x, hp, h => by
    unfold nameStmt at h
    obtain ⟨c', f1, h1, h⟩ := Act.ok_inv h
    obtain ⟨b', f2, h2, h⟩ := Act.ok_inv h
    obtain ⟨e', f3, h3, h⟩ := Act.ok_inv h
    cases h
    simp only [Plain] at hp
    have a := adds_expr c h1
    obtain ⟨k, d⟩ := step_stmt b hp.1 h2
    obtain ⟨l, m⟩ := step_stmt e hp.2 h3
    rw [k.cur, a.cur] at l
    rw [a.cur] at k
    simpa [pdecls, DeclaresOwn] using ⟨(a.step.trans k).trans l, d, m⟩
  | .while c b, f, f', x, hp, h => by
    unfold nameStmt at h
    obtain ⟨c', f1, h1, h⟩ := Act.ok_inv h
    obtain ⟨_, f2, h2, h⟩ := Act.ok_inv h
    obtain ⟨b', f3, h3, h⟩ := Act.ok_inv h
    obtain ⟨_, f4, h4, h⟩ := Act.ok_inv h
    cases h
    have a := (adds_expr c h1).trans (adds_open h2)
    obtain ⟨k, d⟩ := step_stmt b (by simpa [Plain] using hp) h3
    rw [a.cur] at k
    have := (a.step.trans k).trans (adds_close h4).step
    rw [List.nil_append, List.append_nil] at this
    simpa [pdecls, DeclaresOwn] using ⟨this, d⟩
  | .for i c s b, f, f', x, hp, h => by
    unfold nameStmt at h
    obtain ⟨_, f1, h1, h⟩ := Act.ok_inv h
    obtain ⟨i', f2, h2, h⟩ := Act.ok_inv h
    obtain ⟨c', f3, h3, h⟩ := Act.ok_inv h
    obtain ⟨s', f4, h4, h⟩ := Act.ok_inv h
    obtain ⟨b', f5, h5, h⟩ := Act.ok_inv h
    obtain ⟨_, f6, h6, h⟩ := Act.ok_inv h
    cases h
    simp only [Plain] at hp
    have a := adds_open h1
    obtain ⟨k, d⟩ := step_stmt i hp.1 h2
    have e := adds_expr c h3
    obtain ⟨l, m⟩ := step_stmt s hp.2.1 h4
    obtain ⟨n, o⟩ := step_stmt b hp.2.2 h5
    rw [l.cur, e.cur, k.cur, a.cur] at n
    rw [e.cur, k.cur, a.cur] at l
    rw [a.cur] at k
    have := ((((a.step.trans k).trans e.step).trans l).trans n).trans (adds_close h6).step
    simp only [List.nil_append, List.append_nil, List.append_assoc] at this
    simpa [pdecls, DeclaresOwn] using ⟨this, d, m, o⟩
  | .ret none, f, f', x, hp, h => by
    unfold nameStmt at h
    obtain ⟨_, f1, h1, h⟩ := Act.ok_inv h
    cases h
    rw [(adds_require h1).1]
    simpa [pdecls, DeclaresOwn] using (Adds.refl f).step
  | .ret (some e), f, f', x, hp, h => by
    unfold nameStmt at h
    obtain ⟨_, f1, h1, h⟩ := Act.ok_inv h
    obtain ⟨_, f2, h2, h⟩ := Act.ok_inv h
    obtain ⟨_, f3, h3, h⟩ := Act.ok_inv h
    cases h
    have e1 := (adds_require h1).1
    have e2 := adds_value h2
    subst e1; subst e2
    simpa [pdecls, DeclaresOwn] using (adds_expr e h3).step
  | .brk, f, f', x, hp, h => by
    cases h; simpa [pdecls, DeclaresOwn] using (Adds.refl f).step
  | .cont, f, f', x, hp, h => by
    cases h; simpa [pdecls, DeclaresOwn] using (Adds.refl f).step
  | .use m as a, f, f', x, hp, h => by
    unfold nameStmt at h
    obtain ⟨_, f1, h1, h⟩ := Act.ok_inv h
    cases h
    rw [adds_top h1]
    simpa [pdecls, DeclaresOwn] using (Adds.refl f).step
  | .struct n fs, f, f', x, hp, h => by
    unfold nameStmt at h
    obtain ⟨_, f1, h1, h⟩ := Act.ok_inv h
    obtain ⟨_, f2, h2, h⟩ := Act.ok_inv h
    obtain ⟨_, f3, h3, h⟩ := Act.ok_inv h
    obtain ⟨_, f4, h4, h⟩ := Act.ok_inv h
    cases h
    have e1 := (adds_require h1).1
    subst e1
    simpa [pdecls, DeclaresOwn] using ((adds_beginStruct h2).trans (adds_fields n fs h3)).trans (adds_endStruct h4) |>.step
  | .assign op ann l r, f, f', x, hp, h => by
    by_cases h1 : ∃ n u, l = .id n u ∧ (ann.isSome = true ∨ op = .declare)
    · obtain ⟨n, u, rfl, h1⟩ := h1
      cases ann with
      | some ty =>
        unfold nameStmt at h
        simp only [Plain] at hp
        exact step_decl hp h (by simp)
      | none =>
        rcases h1 with h1 | rfl
        · cases h1
        · unfold nameStmt at h
          exact step_decl (by simp) h (by simp)
    · have e : nameStmt frontOps (.assign op ann l r) = nameAssign frontOps op l r := by
        rw [nameStmt]
        · rintro ty n u rfl rfl; exact h1 ⟨n, u, rfl, .inl rfl⟩
        · rintro n u rfl rfl rfl; exact h1 ⟨n, u, rfl, .inr rfl⟩
      rw [e] at h
      exact step_assign h fun n u ho hl => h1 ⟨n, u, hl, .inr ho⟩
theorem step_stmts : ∀ (ss : List SStmt) {f f' : Front} {xs : List CStmt}, Plains ss → nameStmts frontOps ss f = .ok xs f' →
    Step f f' (pdeclsL f.currFunc xs) ∧ DeclareOwn xs
  | [], f, f', x, hp, h => by
    cases h; simpa [pdeclsL, DeclareOwn] using (Adds.refl f).step
  | s :: ss, f, f', x, hp, h => by
    unfold nameStmts at h
    obtain ⟨y, f1, h1, h⟩ := Act.ok_inv h
    obtain ⟨ys, f2, h2, h⟩ := Act.ok_inv h
    cases h
    obtain ⟨a, b⟩ := step_stmt s hp.1 h1
    obtain ⟨c, d⟩ := step_stmts ss hp.2 h2
    rw [a.cur] at c
    exact ⟨by simpa [pdeclsL] using a.trans c, b, d⟩
end

end Tiny
