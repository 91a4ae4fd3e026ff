import Verif.Proofs.JsonText

/-!
# The buffer of the macro `json`
-/

namespace Tiny
open Spec

theorem act_pure_ok {σ α : Type} (a : α) (s : σ) : (pure a : Act σ α) s = .ok a s := rfl
theorem act_get_ok {σ : Type} (s : σ) : (Act.get : Act σ σ) s = .ok s s := rfl

/-- The calls for the types of the fields. -/
def bindEach (bind : Tag → Act TState Bool) : List (Name × Tag) → Act TState Unit
  | [] => pure ()
  | p :: ps => do
    let _ ← bind p.2
    bindEach bind ps

theorem buf_add {cap : Nat} {x y : List UInt8} (h : (x ++ y).length < cap) :
    TextBuf.add cap ⟨x.length, x⟩ y = pure ⟨(x ++ y).length, x ++ y⟩ := by
  have h1 : (x ++ y).length = x.length + y.length := List.length_append
  unfold TextBuf.add
  rw [if_neg (show ¬ cap < x.length by omega)]
  congr 2
  · exact h1.symm
  · exact List.take_of_length_le (by show (x ++ y).length ≤ _; omega)

/-- The names of the types. -/
def fieldNames (fs : List (Name × Tag)) : List (Name × Name) := fs.map fun p => (p.1, p.2.name)

def laterText (fs : List (Name × Tag)) : List UInt8 := fs.flatMap fun p => jsonSep ++ jsonField p.1 p.2.name

theorem fieldsText_cons (p : Name × Tag) (fs : List (Name × Tag)) :
    jsonFieldsText (fieldNames (p :: fs)) = jsonField p.1 p.2.name ++ laterText fs := by
  induction fs generalizing p with
  | nil => simp [fieldNames, jsonFieldsText, laterText]
  | cons q fs ih =>
    have := ih q
    simp only [fieldNames, List.map_cons, jsonFieldsText, laterText, List.flatMap_cons] at this ⊢
    rw [this]
    simp

theorem fields_later (bind : Tag → Act TState Bool) : ∀ (fs : List (Name × Tag)) (i : Nat) (x : List UInt8),
    (x ++ laterText fs).length < jsonCap → jsonFields bind (i + 1) fs ⟨x.length, x⟩ =
      bindEach bind fs >>= fun _ => pure ⟨(x ++ laterText fs).length, x ++ laterText fs⟩
  | [], i, x, h => by
    funext s
    simp [jsonFields, bindEach, laterText]
  | p :: ps, i, x, h => by
    have e : x ++ laterText (p :: ps) = ((x ++ jsonSep) ++ jsonField p.1 p.2.name) ++ laterText ps := by simp [laterText]
    have h1 : (x ++ jsonSep).length < jsonCap := by rw [e] at h; simp only [List.length_append] at h ⊢; omega
    have h2 : ((x ++ jsonSep) ++ jsonField p.1 p.2.name).length < jsonCap := by rw [e] at h; simp only [List.length_append] at h ⊢; omega
    funext s
    rw [e, jsonFields, if_pos (Nat.succ_pos i), buf_add h1]
    simp only [Act.bind_apply, act_pure_ok, bindEach]
    cases hb : bind p.2 s with
    | ok b s' =>
      dsimp only
      rw [buf_add h2]
      simp only [act_pure_ok]
      rw [fields_later bind ps (i + 1) _ (by rw [← e]; exact h)]
      rfl
    | _ => rfl

theorem fields_all (bind : Tag → Act TState Bool) (fs : List (Name × Tag)) (x : List UInt8)
    (h : (x ++ jsonFieldsText (fieldNames fs)).length < jsonCap) : jsonFields bind 0 fs ⟨x.length, x⟩ =
      bindEach bind fs >>= fun _ => pure ⟨(x ++ jsonFieldsText (fieldNames fs)).length, x ++ jsonFieldsText (fieldNames fs)⟩ := by
  cases fs with
  | nil =>
    funext s
    simp [jsonFields, bindEach, fieldNames, jsonFieldsText]
  | cons p ps =>
    rw [fieldsText_cons] at h ⊢
    rw [← List.append_assoc] at h ⊢
    have h2 : (x ++ jsonField p.1 p.2.name).length < jsonCap := by simp only [List.length_append] at h ⊢; omega
    funext s
    rw [jsonFields, if_neg (Nat.lt_irrefl 0)]
    simp only [Act.bind_apply, act_pure_ok, bindEach]
    cases hb : bind p.2 s with
    | ok b s' =>
      dsimp only
      rw [buf_add h2]
      simp only [act_pure_ok]
      rw [fields_later bind ps 0 _ h]
      rfl
    | _ => rfl

/-- The text fits the array: it is what is compiled, after the calls for the types of the fields. -/
theorem bindJson_text {E : CompileEnv} {k : Nat} {t : Tag} {fs : List (Name × Tag)} {s : TState} (ht : tagFields s.front t = some fs)
    (hf : findFuncSymbol (jsonFn t.name) s.front = none) (hl : (jsonText t.name (fieldNames fs)).length < jsonCap) :
    bindJson E (k + 1) t s = (bindEach (bindJson E k) fs >>= fun _ =>
      compileString E (some (bytes "(json mod)")) (jsonText t.name (fieldNames fs))) s := by
  have hl' : (jsonHead t.name ++ jsonFieldsText (fieldNames fs) ++ jsonTail).length < jsonCap := hl
  have l1 : (jsonHead t.name).length < jsonCap := by simp only [List.length_append] at hl'; omega
  have l2 : (jsonHead t.name ++ jsonFieldsText (fieldNames fs)).length < jsonCap := by
    simp only [List.length_append] at hl' ⊢; omega
  have hn : (t.name ++ nameOf "_to_json").take (jsonCap - 1) = jsonFn t.name := by
    refine List.take_of_length_le ?_
    simp only [jsonHead, List.length_append] at l1
    have e1 : (nameOf "_to_json").length = 8 := by decide +kernel
    have e2 : (nameOf "func ").length = 5 := by decide +kernel
    have e3 : (nameOf "_to_json(v: ").length = 12 := by decide +kernel
    simp only [List.length_append]
    omega
  rw [bindJson]
  simp only [Act.bind_apply, act_get_ok, ht, hn, hf, Option.isSome_none, Bool.false_eq_true, if_false]
  have e0 : TextBuf.add jsonCap {} (jsonHead t.name) = pure ⟨(jsonHead t.name).length, jsonHead t.name⟩ := by
    have := buf_add (x := []) (y := jsonHead t.name) (cap := jsonCap) (by simpa using l1)
    simpa using this
  rw [e0]
  simp only [act_pure_ok]
  rw [fields_all _ _ _ l2]
  simp only [Act.bind_apply, act_pure_ok]
  cases hb : bindEach (bindJson E k) fs s with
  | ok b s' =>
    dsimp only
    rw [buf_add hl']
    rfl
  | _ => rfl

end Tiny
