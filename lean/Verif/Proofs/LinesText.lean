import Verif.Proofs.LexText
import Verif.Proofs.Bind

/-!
# Texts of several lines put together from tokens
-/

namespace Tiny
open Spec

/-- The text, from line `n` to line `m`, consists of these tokens on these lines. -/
def LinesIs (n : Nat) (u : List UInt8) (ts : List (Token × Nat)) (m : Nat) : Prop :=
  ∃ is, Reads n u is m ∧ is.map (fun i => (i.tok, i.line)) = ts

theorem reads_layout {c : UInt8} {n : Nat} {src ts m} (hc : Blank c) (h : Reads (n + newlines [c]) src ts m) : Reads n (c :: src) ts m := by
  have e : ∀ w, newlines (c :: w) = newlines [c] + newlines w := fun w => by
    have : newlines ([] : List UInt8) = 0 := rfl
    simp only [newlines_cons, this]
    omega
  cases h with
  | done h =>
    have := e src
    rw [show n + newlines [c] + newlines src = n + newlines (c :: src) by omega]
    cases h with
    | done h => exact .done (.done (.blank hc h))
    | comment h hb => exact .done (.comment (w := c :: _) (.blank hc h) hb)
  | @token _ w s u t ts _ hw hs hl h =>
    have e2 : n + newlines [c] + newlines w = n + newlines (c :: w) := by have := e w; omega
    rw [e2] at h ⊢
    exact Reads.token (n := n) (w := c :: w) (.blank hc hw) hs hl h

namespace LinesIs

theorem nil {n : Nat} : LinesIs n [] [] n := ⟨[], by simpa [newlines] using Reads.done (n := n) (w := []) (.done .nil), rfl⟩

theorem blank {n m u ts} (h : LinesIs n u ts m) : LinesIs n (32 :: u) ts m := by
  obtain ⟨is, h1, h2⟩ := h
  exact ⟨is, reads_layout (by decide) h1, h2⟩

theorem tab {n m u ts} (h : LinesIs n u ts m) : LinesIs n (9 :: u) ts m := by
  obtain ⟨is, h1, h2⟩ := h
  exact ⟨is, reads_layout (by decide) h1, h2⟩

theorem newline {n m u ts} (h : LinesIs (n + 1) u ts m) : LinesIs n (10 :: u) ts m := by
  obtain ⟨is, h1, h2⟩ := h
  exact ⟨is, reads_layout (by decide) h1, h2⟩

theorem token {s u : List UInt8} {t : Token} {ts n m} (hs : Spelled s t) (hl : Longest s u) (h : LinesIs n u ts m) :
    LinesIs n (s ++ u) ((t, n) :: ts) m := by
  obtain ⟨is, h1, h2⟩ := h
  have := Reads.token (n := n) (w := []) .nil hs hl (by simpa [newlines] using h1)
  exact ⟨_, by simpa [newlines] using this, by simp [h2]⟩

theorem ident {s u : List UInt8} {ts n m} (hs : IsIdent s) (hu : NoWord u) (h : LinesIs n u ts m) :
    LinesIs n (s ++ u) ((.ident s, n) :: ts) m := h.token hs (longest_word hs.word hu)

theorem sym {x : String} {k : Tok} {u : List UInt8} {ts n m} (hx : (x, k) ∈ symbols) (hu : NoLonger x u)
    (h : LinesIs n u ts m) : LinesIs n (bytes x ++ u) ((.sym k, n) :: ts) m := h.token (.sym hx) (longest_sym hx hu)

theorem keyword {x : String} {k : Tok} {u : List UInt8} {ts n m} (hx : (x, k) ∈ keywords) (hu : NoWord u)
    (h : LinesIs n u ts m) : LinesIs n (bytes x ++ u) ((.sym k, n) :: ts) m :=
  h.token (.keyword hx) (longest_word (keyword_word _ hx) hu)

theorem str {q b u : List UInt8} {ts n m} (hq : Quoted q b) (h : LinesIs n u ts m) :
    LinesIs n (34 :: (q ++ 34 :: u)) ((.str b, n) :: ts) m := by
  have hlong : Longest (34 :: q ++ [34]) u := by
    refine ⟨?_, by simp [bytes]⟩
    intro s' t' h' hp
    have hp' : s' <+: 34 :: (q ++ 34 :: u) := by simpa using hp
    have H := head_classes 34
    rcases h'.head_of_prefix hp' with ⟨h, _⟩ | ⟨h, _⟩ | ⟨h, _⟩ | ⟨_, q', b', hq', rfl, _⟩ | ⟨h, _⟩
    · exact absurd rfl (H.1 h).2.2.1
    · exact absurd h (by decide)
    · exact absurd h (by decide)
    · obtain ⟨z, hz⟩ := hp'
      have e2 : q' ++ 34 :: z = q ++ 34 :: u := by simpa using hz
      have := (hq'.unique hq e2).1
      simp [this]
    · exact absurd h (by decide)
  have := h.token (.str hq) hlong
  simpa using this

end LinesIs

end Tiny
