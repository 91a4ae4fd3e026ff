import Verif.Proofs.DelegateCompile
import Verif.Props.StdString

/-!
# The macro `delegate`
-/

namespace Tiny
open Spec

/-! ## Names -/

theorem word_mem {n : Name} (h : IsIdent n) : ∀ c ∈ n, wordByte c = true := isWord_all h.word

theorem intercalate_mem {p : UInt8 → Prop} {sep : List UInt8} (hs : ∀ c ∈ sep, p c) : ∀ {l : List (List UInt8)}, (∀ x ∈ l, ∀ c ∈ x, p c) → ∀ c ∈ List.intercalate sep l, p c
  | [], _ => by simp [List.intercalate]
  | [x], h => by rw [intercalate_one]; exact h x (by simp)
  | x :: y :: l, h => by
    intro c hc
    rw [intercalate_two, List.mem_append, List.mem_append] at hc
    rcases hc with hc | hc | hc
    · exact h x (by simp) c hc
    · exact hs c hc
    · exact intercalate_mem hs (l := y :: l) (fun z hz => h z (by simp [hz])) c hc

theorem delegate_ident {ts : List Name} (ht : ∀ t ∈ ts, IsIdent t) {r : Name} (hr : IsIdent r) : IsIdent (delegateType ts r) := by
  have h0 : IsIdent (bytes "delegate_") := identOf ⟨by decide, by decide⟩ (by decide +kernel) (by decide) (by decide)
  have : delegateType ts r = bytes "delegate_" ++ (List.intercalate (bytes "_") ts ++ bytes "_" ++ r) := by simp [delegateType]
  rw [this]
  refine under_ident h0 ?_ (by simp [bytes])
  intro c hc
  simp only [List.mem_append] at hc
  rcases hc with (hc | hc) | hc
  · exact intercalate_mem (p := fun c => wordByte c = true) (by decide) (fun x hx => word_mem (ht x hx)) c hc
  · revert c; decide
  · exact word_mem hr c hc

/-! ## The buffers -/

theorem intercalate_flat (sep : List UInt8) : ∀ (x : List UInt8) (l : List (List UInt8)), List.intercalate sep (x :: l) = x ++ l.flatMap (sep ++ ·)
  | x, [] => by rw [intercalate_one]; simp
  | x, y :: l => by rw [intercalate_two, intercalate_flat sep y l]; simp

def typesLater (ts : List Name) : List UInt8 := ts.flatMap (bytes "_" ++ ·)
def argsLater (i : Nat) (ts : List Name) : List UInt8 := (delegateArgTexts i ts).flatMap (bytes ", " ++ ·)
def idsLater (i : Nat) (ts : List Name) : List UInt8 := (delegateIdTexts i ts).flatMap (bytes ", " ++ ·)

def bufsOf (x y z : List UInt8) : DelegateBufs := ⟨⟨x.length, x⟩, ⟨y.length, y⟩, ⟨z.length, z⟩⟩

theorem delegate_later : ∀ (ts : List Tag) (i : Nat) (x y z : List UInt8), (x ++ typesLater (ts.map Tag.name)).length < 512 →
    (y ++ argsLater (i + 1) (ts.map Tag.name)).length < 512 → (z ++ idsLater (i + 1) (ts.map Tag.name)).length < 512 →
    delegateArgs (i + 1) ts (bufsOf x y z) = pure (bufsOf (x ++ typesLater (ts.map Tag.name)) (y ++ argsLater (i + 1) (ts.map Tag.name)) (z ++ idsLater (i + 1) (ts.map Tag.name)))
  | [], i, x, y, z, _, _, _ => by simp [delegateArgs, typesLater, argsLater, idsLater, delegateArgTexts, delegateIdTexts]
  | t :: ts, i, x, y, z, hx, hy, hz => by
    have ex : x ++ typesLater ((t :: ts).map Tag.name) = x ++ bytes "_" ++ t.name ++ typesLater (ts.map Tag.name) := by simp [typesLater]
    have ey : y ++ argsLater (i + 1) ((t :: ts).map Tag.name) = y ++ bytes ", " ++ (bytes "a" ++ decimal (i + 1) ++ bytes ": " ++ t.name) ++ argsLater (i + 1 + 1) (ts.map Tag.name) := by
      simp [argsLater, delegateArgTexts, argName]
    have ez : z ++ idsLater (i + 1) ((t :: ts).map Tag.name) = z ++ bytes ", " ++ (bytes "a" ++ decimal (i + 1)) ++ idsLater (i + 1 + 1) (ts.map Tag.name) := by
      simp [idsLater, delegateIdTexts, argName]
    rw [ex] at hx ⊢
    rw [ey] at hy ⊢
    rw [ez] at hz ⊢
    have x2 : (x ++ bytes "_" ++ t.name).length < delegateCap := by rw [List.length_append] at hx; show _ < 512; omega
    have x1 : (x ++ bytes "_").length < delegateCap := by rw [List.length_append] at x2; omega
    have y2 : (y ++ bytes ", " ++ (bytes "a" ++ decimal (i + 1) ++ bytes ": " ++ t.name)).length < delegateCap := by rw [List.length_append] at hy; show _ < 512; omega
    have y1 : (y ++ bytes ", ").length < delegateCap := by rw [List.length_append] at y2; omega
    have z2 : (z ++ bytes ", " ++ (bytes "a" ++ decimal (i + 1))).length < delegateCap := by rw [List.length_append] at hz; show _ < 512; omega
    have z1 : (z ++ bytes ", ").length < delegateCap := by rw [List.length_append] at z2; omega
    have ih := delegate_later ts (i + 1) _ _ _ hx hy hz
    funext s
    rw [delegateArgs, if_pos (Nat.succ_pos i)]
    simp only [Act.bind_apply, bufsOf, fmtDigits_decimal, ← bytes_nameOf]
    rw [buf_add x1]
    simp only [act_pure_ok]
    rw [buf_add y1]
    simp only [act_pure_ok]
    rw [buf_add z1]
    simp only [act_pure_ok]
    rw [buf_add x2]
    simp only [act_pure_ok]
    rw [buf_add y2]
    simp only [act_pure_ok]
    rw [buf_add z2]
    simp only [act_pure_ok]
    exact congrFun ih s

theorem delegate_bufs {ts : List Tag} (hx : (bytes "delegate_" ++ List.intercalate (bytes "_") (ts.map Tag.name)).length < 512)
    (hy : (List.intercalate (bytes ", ") (delegateArgTexts 0 (ts.map Tag.name))).length < 512) (hz : (List.intercalate (bytes ", ") (delegateIdTexts 0 (ts.map Tag.name))).length < 512) :
    delegateArgs 0 ts (bufsOf (bytes "delegate_") [] []) = pure (bufsOf (bytes "delegate_" ++ List.intercalate (bytes "_") (ts.map Tag.name))
      (List.intercalate (bytes ", ") (delegateArgTexts 0 (ts.map Tag.name))) (List.intercalate (bytes ", ") (delegateIdTexts 0 (ts.map Tag.name)))) := by
  cases ts with
  | nil => simp [delegateArgs, delegateArgTexts, delegateIdTexts, List.intercalate]
  | cons t ts =>
    simp only [List.map_cons, delegateArgTexts, delegateIdTexts, intercalate_flat] at hx hy hz ⊢
    rw [← List.append_assoc] at hx ⊢
    have ih := delegate_later ts 0 (bytes "delegate_" ++ t.name) (argName 0 ++ bytes ": " ++ t.name) (argName 0) hx hy hz
    have x1 : (bytes "delegate_" ++ t.name).length < delegateCap := by rw [List.length_append] at hx; show _ < 512; omega
    have y1 : (argName 0 ++ bytes ": " ++ t.name).length < delegateCap := by rw [List.length_append] at hy; show _ < 512; omega
    have z1 : (argName 0).length < delegateCap := by rw [List.length_append] at hz; show _ < 512; omega
    have y1' := buf_add (x := []) (y := argName 0 ++ bytes ": " ++ t.name) (cap := delegateCap) (by simpa using y1)
    have z1' := buf_add (x := []) (y := argName 0) (cap := delegateCap) (by simpa using z1)
    rw [List.nil_append] at y1' z1'
    funext s
    rw [delegateArgs, if_neg (Nat.lt_irrefl 0)]
    simp only [Act.bind_apply, bufsOf, fmtDigits_decimal, ← bytes_nameOf, act_pure_ok]
    rw [buf_add x1]
    simp only [act_pure_ok]
    rw [show bytes "a" ++ decimal 0 ++ bytes ": " ++ t.name = argName 0 ++ bytes ": " ++ t.name from rfl, y1']
    simp only [act_pure_ok]
    rw [show bytes "a" ++ decimal 0 = argName 0 from rfl, z1']
    simp only [act_pure_ok]
    exact congrFun ih s

end Tiny
