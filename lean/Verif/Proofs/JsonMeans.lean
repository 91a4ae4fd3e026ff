import Verif.Proofs.JsonBind
import Verif.Props.StdString

/-!
# What the functions compiled by the macro `json` return
-/

namespace Tiny
open Spec

theorem extends_trans {a b c : Heap} (h : Extends a b) (k : Extends b c) : Extends a c :=
  ⟨fun o ho => k.live o (h.live o ho), fun o ho => (k.same o (h.live o ho)).trans (h.same o ho), k.fresh, k.freed.trans h.freed⟩

theorem extends_refl {a : Heap} (h : ∀ o ∈ a.list, o < a.next) : Extends a a := ⟨fun _ h => h, fun _ _ => rfl, h, rfl⟩

theorem isStr_more {m : Nat → List UInt8} {a b : Heap} (h : Extends a b) {v : Value} {x : List UInt8} (k : IsStr m a v x) : IsStr m b v x := by
  cases v with
  | str o => exact ⟨h.live o k.1, (h.same o k.1).trans k.2⟩
  | cstr i => exact k
  | _ => exact k.elim

/-- The text of a piece. -/
inductive PieceText (c : Ctx) (h : Heap) (fs : List (Name × Tag)) (vals : List Value) : JPiece → List UInt8 → Prop
  | text {x} : 0 ∉ x → PieceText c h fs vals (.text x) x
  | field {g G p i v x} : c.globals.funcs g = some G → (fs.map Prod.fst).idxOf? p = some i → vals[i]? = some v → WritesAs c G h v x →
      PieceText c h fs vals (.field g p) x

theorem eval_piece {c : Ctx} {T : Name} {fs : List (Name × Tag)} (hs : c.globals.structs T = some fs) {σ : List (List UInt8)}
    (hc : ∀ (i : Nat) x, σ[i]? = some x → c.cmem i = x ∧ i < c.numStrings ∧ i ≤ 255) {h : Heap} {o : ObjId} {vals : List Value} (ho : o ∈ h.list)
    (hv : h.obj o = .struct vals) {a : JPiece} {e : Expr} (he : a.Typed σ T e) {x : List UInt8} (hx : PieceText c h fs vals a x) (w : World)
    (hw : Extends h w.heap) : ∃ N v w', (∀ n, N ≤ n → evalE c n e ⟨[.struct o], []⟩ w = .ok (v, w')) ∧ IsStr c.cmem w'.heap v x ∧ Extends w.heap w'.heap := by
  cases he with
  | @text x i hi =>
    cases hx with
    | text h0 =>
      obtain ⟨h1, h2, h3⟩ := hc i x hi
      refine ⟨1, .cstr i, w, fun n hn => ?_, ?_, extends_refl hw.fresh⟩
      · obtain ⟨n, rfl⟩ : ∃ j, n = j + 1 := ⟨n - 1, by omega⟩
        simp only [evalE, strConst, h2, h3, and_self, if_true]
        rfl
      · show x = (c.cmem i).takeWhile (· ≠ 0)
        rw [h1, takeWhile_no_nul h0]
  | @field g p =>
    cases hx with
    | @field _ G _ i v x h1 h2 h3 h4 =>
      obtain ⟨N, r, w', k1, k2, k3⟩ := h4 w hw
      refine ⟨N + 5, r, w', fun n hn => ?_, k2, k3⟩
      obtain ⟨n, rfl⟩ : ∃ j, n = j + 5 := ⟨n - 5, by omega⟩
      have hl : w.heap.obj o = .struct vals := (hw.same o ho).trans hv
      have hf : getField c w (some (.named T)) p (.struct o) = .ok v := by
        simp only [getField, fieldPos, Option.bind_some, Tag.structName, hs, h2, known, fieldsOf, if_pos (hw.live o ho), hl]
        show (match vals[i]? with | some x => Res.ok x | none => Res.abort) = _
        rw [h3]
      have hid : ∀ m, evalE c (m + 1) (.id (bytes "v") (some (.loc (-1)))) ⟨[.struct o], []⟩ w = .ok (.struct o, w) := by
        intro m
        simp only [evalE, readVar, Vars.get]
        rfl
      have hd : ∀ m, evalE c (m + 2) (.dot (.id (bytes "v") (some (.loc (-1)))) p (some (.named T))) ⟨[.struct o], []⟩ w = .ok (v, w) := by
        intro m
        rw [evalE]
        simp only [hid, Res.bind_ok, hf]
      have hl2 : evalList c (n + 4) [.dot (.id (bytes "v") (some (.loc (-1)))) p (some (.named T))] ⟨[.struct o], []⟩ w = .ok ([v], w) := by
        rw [evalList]
        simp only [hd, Res.bind_ok, evalList]
      rw [evalE]
      simp only [hl2, Res.bind_ok, h1]
      exact k1 (n + 4) (by omega)

theorem areStrs_cons {m : Nat → List UInt8} {h : Heap} {v : Value} {vs : List Value} {x : List UInt8} {xs : List (List UInt8)}
    (a : IsStr m h v x) (b : AreStrs m h vs xs) : AreStrs m h (v :: vs) (x :: xs) := ⟨a, b⟩

theorem eval_pieces {c : Ctx} {T : Name} {fs : List (Name × Tag)} (hs : c.globals.structs T = some fs) {σ : List (List UInt8)}
    (hc : ∀ (i : Nat) x, σ[i]? = some x → c.cmem i = x ∧ i < c.numStrings ∧ i ≤ 255) {h : Heap} {o : ObjId} {vals : List Value} (ho : o ∈ h.list)
    (hv : h.obj o = .struct vals) {as : List JPiece} {es : List Expr} (he : List.Forall₂ (JPiece.Typed σ T) as es) : ∀ {xs : List (List UInt8)},
    List.Forall₂ (PieceText c h fs vals) as xs → ∀ (w : World), Extends h w.heap →
    ∃ N vs w', (∀ n, N ≤ n → evalList c n es ⟨[.struct o], []⟩ w = .ok (vs, w')) ∧ AreStrs c.cmem w'.heap vs xs ∧ Extends w.heap w'.heap ∧
      vs.length = es.length := by
  induction he with
  | nil =>
    intro xs hx w hw
    cases hx
    refine ⟨1, [], w, fun n hn => ?_, trivial, extends_refl hw.fresh, rfl⟩
    obtain ⟨n, rfl⟩ : ∃ j, n = j + 1 := ⟨n - 1, by omega⟩
    rw [evalList]
  | cons ha _ ih =>
    intro xs hx w hw
    cases hx with
    | cons h1 h2 =>
      obtain ⟨N1, v, w1, a1, a2, a3⟩ := eval_piece hs hc ho hv ha h1 w hw
      obtain ⟨N2, vs, w2, b1, b2, b3, b4⟩ := ih h2 w1 (extends_trans hw a3)
      refine ⟨N1 + N2 + 1, v :: vs, w2, fun n hn => ?_, areStrs_cons (isStr_more b3 a2) b2, extends_trans a3 b3, by simp [b4]⟩
      obtain ⟨n, rfl⟩ : ∃ j, n = j + 1 := ⟨n - 1, by omega⟩
      rw [evalList]
      simp only [a1 n (by omega), Res.bind_ok, b1 n (by omega)]

/-- The texts of the pieces of an object. -/
theorem pieces_text {c : Ctx} {h : Heap} {vals : List Value} {all : List (Name × Tag)} (hd : (all.map Prod.fst).Nodup) : ∀ {fs : List (Name × Tag)} {vs : List Value}
    {ms : List (Name × List UInt8)} (k : Nat), fs = all.drop k → vs = vals.drop k → (∀ p ∈ fs, 0 ∉ jsonKey p.1) → FieldsWritten c h fs vs ms →
    ∃ xs, List.Forall₂ (PieceText c h all vals) (jsonPieces (fieldNames fs)) xs ∧ xs.flatten = jsonMembers ms := by
  have one : ∀ {p : Name × Tag} {fs : List (Name × Tag)} {v : Value} {vs : List Value} {k : Nat} {G : FnSym} {x : List UInt8}, p :: fs = all.drop k → v :: vs = vals.drop k →
      c.globals.funcs (jsonFn p.2.name) = some G → WritesAs c G h v x → PieceText c h all vals (.field (jsonFn p.2.name) p.1) x := by
    intro p fs v vs k G x e1 e2 h1 h2
    have g1 : all[k]? = some p := by rw [← List.head?_drop, ← e1]; rfl
    have g2 : vals[k]? = some v := by rw [← List.head?_drop, ← e2]; rfl
    refine .field h1 ?_ g2 h2
    have g3 : (all.map Prod.fst)[k]? = some p.1 := by rw [List.getElem?_map, g1]; rfl
    obtain ⟨hlt, g4⟩ := List.getElem?_eq_some_iff.1 g3
    rw [List.idxOf?_eq_some_iff]
    refine ⟨hlt, g4, ?_⟩
    intro j hj e
    have := (List.Nodup.getElem_inj_iff hd).1 (e.trans g4.symm)
    omega
  intro fs
  induction fs with
  | nil =>
    intro vs ms k _ _ _ h3
    cases vs <;> cases ms <;> first | exact h3.elim | exact ⟨[], .nil, rfl⟩
  | cons p fs ih =>
    intro vs ms k e1 e2 hz h3
    match vs, ms, h3 with
    | v :: vs, m :: ms, ⟨h4, ⟨G, h5, h6⟩, h7⟩ =>
      have hp := one e1 e2 h5 h6
      have hk := hz p (by simp)
      have e1' : fs = all.drop (k + 1) := by rw [← List.tail_drop, ← e1]; rfl
      have e2' : vs = vals.drop (k + 1) := by rw [← List.tail_drop, ← e2]; rfl
      obtain ⟨xs, a, b⟩ := ih (k + 1) e1' e2' (fun q hq => hz q (List.mem_cons_of_mem _ hq)) h7
      cases fs with
      | nil =>
        match vs, ms, h7 with
        | [], [], _ => exact ⟨[jsonKey p.1, m.2], .cons (.text hk) (.cons hp .nil), by simp [jsonMembers, h4]⟩
      | cons q fs =>
        match vs, ms, h7 with
        | v' :: vs, m' :: ms, _ =>
          refine ⟨jsonKey p.1 :: m.2 :: bytes "," :: xs, .cons (.text hk) (.cons hp (.cons (.text (by decide +kernel)) a)), ?_⟩
          simp only [List.flatten_cons, b, jsonMembers, h4]
          simp

theorem call_unit {c : Ctx} {T : Name} {fs : List (Name × Tag)} (hs : c.globals.structs T = some fs) (hd : (fs.map Prod.fst).Nodup)
    (hz : ∀ p ∈ fs, 0 ∉ jsonKey p.1) {σ : List (List UInt8)}
    (hc : ∀ (i : Nat) x, σ[i]? = some x → c.cmem i = x ∧ i < c.numStrings ∧ i ≤ 255) {i : Nat} {es : List Expr}
    (hf : c.fns i = some ⟨1, 0, .node 1 (.block [.node 2 (.ret (some (.call (bytes "strcat") es)))])⟩)
    (he : List.Forall₂ (JPiece.Typed σ T) (.text (bytes "{") :: jsonPieces (fieldNames fs) ++ [.text (bytes "}")]) es)
    {S : FnSym} (hS : c.globals.funcs (bytes "strcat") = some S) (hj : JoinsTexts c S)
    {h : Heap} {o : ObjId} {vals : List Value} {ms : List (Name × List UInt8)} (ho : o ∈ h.list) (hv : h.obj o = .struct vals) (hw : FieldsWritten c h fs vals ms) :
    WritesAs c (.tiny i) h (.struct o) (jsonObject ms) := by
  intro w hx
  obtain ⟨xs, a, b⟩ := pieces_text (vals := vals) hd 0 (by simp) (by simp) hz hw
  have hp : List.Forall₂ (PieceText c h fs vals) (.text (bytes "{") :: jsonPieces (fieldNames fs) ++ [.text (bytes "}")]) (bytes "{" :: xs ++ [bytes "}"]) :=
    List.rel_append (.cons (.text (by decide +kernel)) a) (.cons (.text (by decide +kernel)) .nil)
  obtain ⟨N1, vs, w1, c1, c2, c3, c4⟩ := eval_pieces hs hc ho hv he hp w hx
  have hlen : 2 ≤ vs.length := by
    rw [c4, ← List.Forall₂.length_eq he]
    simp
  obtain ⟨N2, r, w2, d1, d2, d3⟩ := hj w1 vs _ c3.fresh hlen c2
  refine ⟨N1 + N2 + 8, r, w2, fun n hn => ?_, ?_, extends_trans c3 d3⟩
  · obtain ⟨n, rfl⟩ : ∃ j, n = j + 8 := ⟨n - 8, by omega⟩
    have e1 : evalE c (n + 2) (.call (bytes "strcat") es) ⟨[.struct o], []⟩ w = .ok (r, w2) := by
      rw [evalE]
      simp only [c1 (n + 1) (by omega), Res.bind_ok, hS, d1 (n + 1) (by omega)]
    have e2 : execS c (n + 7) (.node 1 (.block [.node 2 (.ret (some (.call (bytes "strcat") es)))])) ⟨[.struct o], []⟩ w = .ok (.ret r, ⟨[.struct o], []⟩, w2) := by
      rw [execS, execS, execSs, execS, execS]
      simp only [e1, Res.bind_ok]
    rw [call]
    simp only [hf, List.length_cons, List.length_nil, if_true]
    rw [show (List.replicate 0 Value.null) = [] from rfl, e2]
    rfl
  · have : (bytes "{" :: xs ++ [bytes "}"]).flatten = jsonObject ms := by
      simp [jsonObject, b]
    rwa [this] at d2

end Tiny
