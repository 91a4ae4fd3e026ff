import Verif.Props.Lex

/-!
# Texts put together from tokens
-/

namespace Tiny
open Spec

/-- The text, on a single line, consists of these tokens. -/
def TextIs (u : List UInt8) (ts : List Token) : Prop := ∀ n, ∃ is, Reads n u is n ∧ is.map Item.tok = ts

/-- An identifier. -/
def IsIdent (n : List UInt8) : Prop := Spelled n (.ident n)

theorem IsIdent.word {n : List UInt8} (h : IsIdent n) : IsWord n := by
  unfold IsIdent at h
  generalize ht : Token.ident n = t at h
  cases h with
  | ident h => exact h
  | _ => cases ht

/-- No word continues with the text. -/
def NoWord (u : List UInt8) : Prop := ∀ c ∈ u.head?, wordByte c = false

theorem longest_word {s u : List UInt8} (hw : IsWord s) (hu : NoWord u) : Longest s u := by
  cases s with
  | nil => exact hw.elim
  | cons d ds =>
    have hd : Letter d := hw.1
    have H := head_classes d
    refine ⟨fun s' t' h' hp => ?_, ?_⟩
    · have hw' : IsWord s' := by
        rcases h'.head_of_prefix (by simpa using hp) with ⟨k, _⟩ | ⟨_, k⟩ | ⟨k, _⟩ | ⟨k, _⟩ | ⟨k, _⟩
        · exact absurd hd (H.1 k).1
        · exact k
        · exact absurd k (H.2.1 hd).1
        · exact absurd k (H.2.1 hd).2.1
        · exact absurd k (H.2.1 hd).2.2.1
      rcases Nat.lt_or_ge (d :: ds).length s'.length with hlt | hge
      · exfalso
        obtain ⟨y, rfl⟩ : d :: ds <+: s' := List.prefix_of_prefix_length_le (List.prefix_append _ u) hp (by omega)
        cases y with
        | nil => simp at hlt
        | cons c r =>
          obtain ⟨z, hz⟩ := hp
          rw [List.append_assoc] at hz
          have hu' : c :: (r ++ z) = u := List.append_cancel_left hz
          have := hu c (by rw [← hu']; simp)
          rw [isWord_all hw' c (by simp)] at this
          cases this
      · exact hge
    · rintro ⟨z, hz⟩
      have : (47 : UInt8) = d := by simp [bytes] at hz; exact hz.1
      rw [← this] at hd
      exact absurd hd (by decide)

/-- No longer operator starts with the text of the operator. -/
def NoLonger (x : String) (u : List UInt8) : Prop :=
  ∀ c ∈ u.head?, (∀ e ∈ symbols, ¬ (bytes x ++ [c] <+: bytes e.1)) ∧ bytes x ++ [c] ≠ bytes "//"

theorem longest_sym {x : String} {k : Tok} (hx : (x, k) ∈ symbols) {u : List UInt8} (hu : NoLonger x u) : Longest (bytes x) u := by
  obtain ⟨d, ds, hb, hd⟩ := sym_head hx
  have H := head_classes d
  refine ⟨fun s' t' h' hp => ?_, ?_⟩
  · rcases Nat.lt_or_ge (bytes x).length s'.length with hlt | hge
    · exfalso
      obtain ⟨y, rfl⟩ : bytes x <+: s' := List.prefix_of_prefix_length_le (List.prefix_append _ u) hp (by omega)
      cases y with
      | nil => simp at hlt
      | cons c r =>
        obtain ⟨z, hz⟩ := id hp
        rw [List.append_assoc] at hz
        have hu' : c :: (r ++ z) = u := List.append_cancel_left hz
        have := hu c (by rw [← hu']; simp)
        have hp' : bytes x ++ c :: r <+: d :: (ds ++ u) := by
          rw [show d :: (ds ++ u) = bytes x ++ u by rw [hb]; rfl]
          exact hp
        rcases h'.head_of_prefix hp' with ⟨k, x', k', hm, he, _⟩ | ⟨k, _⟩ | ⟨k, _⟩ | ⟨k, _⟩ | ⟨k, _⟩
        · exact this.1 _ hm (by rw [← he]; exact ⟨r, by simp⟩)
        · exact absurd k (H.1 hd).1
        · exact absurd k (H.1 hd).2.1
        · exact absurd k (H.1 hd).2.2.1
        · exact absurd k (H.1 hd).2.2.2.1
    · exact hge
  · rintro ⟨z, hz⟩
    have h2 : ∀ e ∈ symbols, bytes e.1 = [47] ∨ (bytes e.1).head? ≠ some 47 ∨ (∃ c ∈ (bytes e.1).tail.head?, c ≠ 47) := by decide +kernel
    have e1 : bytes "//" = [47, 47] := rfl
    rw [e1] at hz
    rcases h2 _ hx with h | h | ⟨c, h, hc⟩
    · dsimp only at h
      cases u with
      | nil => rw [h] at hz; simp at hz
      | cons c u =>
        rw [h] at hz
        simp at hz
        exact (hu c (by simp)).2 (by rw [h, ← hz.1, e1]; rfl)
    · dsimp only at h
      rw [hb] at hz h
      simp at hz h
      exact h hz.1.symm
    · dsimp only at h
      rw [hb] at hz h
      cases ds with
      | nil => simp at h
      | cons a ds => simp at hz h; exact hc (h ▸ hz.2.1.symm)

theorem TextIs.nil : TextIs [] [] := fun n => ⟨[], by simpa [newlines] using Reads.done (n := n) (w := []) (.done .nil), rfl⟩

theorem TextIs.blank {u : List UInt8} {ts : List Token} (h : TextIs u ts) : TextIs (32 :: u) ts := fun n => by
  obtain ⟨is, h1, h2⟩ := h n
  exact ⟨is, Reads.blank h1, h2⟩

theorem TextIs.token {s u : List UInt8} {t : Token} {ts : List Token} (hs : Spelled s t) (hl : Longest s u) (h : TextIs u ts) :
    TextIs (s ++ u) (t :: ts) := fun n => by
  obtain ⟨is, h1, h2⟩ := h n
  have := Reads.token (n := n) (w := []) .nil hs hl (by simpa [newlines] using h1)
  exact ⟨_, by simpa [newlines] using this, by simp [h2]⟩

theorem TextIs.ident {s u : List UInt8} {ts : List Token} (hs : IsIdent s) (hu : NoWord u) (h : TextIs u ts) :
    TextIs (s ++ u) (.ident s :: ts) := h.token hs (longest_word hs.word hu)

theorem TextIs.sym {x : String} {k : Tok} {u : List UInt8} {ts : List Token} (hx : (x, k) ∈ symbols) (hu : NoLonger x u)
    (h : TextIs u ts) : TextIs (bytes x ++ u) (.sym k :: ts) := h.token (.sym hx) (longest_sym hx hu)

/-- Operators which are not the beginning of others. -/
theorem noLonger_any {x : String} (h : ∀ c : Fin 256, (∀ e ∈ symbols, ¬ (bytes x ++ [UInt8.ofFin c] <+: bytes e.1)) ∧
    bytes x ++ [UInt8.ofFin c] ≠ bytes "//") (u : List UInt8) : NoLonger x u := fun c _ =>
  byte_all (p := fun c => (∀ e ∈ symbols, ¬ (bytes x ++ [c] <+: bytes e.1)) ∧ bytes x ++ [c] ≠ bytes "//") h c

theorem noLonger_open (u : List UInt8) : NoLonger "(" u := noLonger_any (by decide +kernel) u
theorem noLonger_close (u : List UInt8) : NoLonger ")" u := noLonger_any (by decide +kernel) u
theorem noLonger_comma (u : List UInt8) : NoLonger "," u := noLonger_any (by decide +kernel) u
theorem noLonger_dots (u : List UInt8) : NoLonger "..." u := noLonger_any (by decide +kernel) u
theorem noLonger_question (u : List UInt8) : NoLonger "?" u := noLonger_any (by decide +kernel) u
theorem noLonger_colon (u : List UInt8) : NoLonger ":" (32 :: u) := by
  intro c hc
  simp only [List.head?_cons, Option.mem_def, Option.some.injEq] at hc
  subst hc
  decide +kernel

end Tiny
