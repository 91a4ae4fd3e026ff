import Verif.Proofs.LexToken
import Verif.Proofs.ParseSafe

/-!
# The tokens the parser sees, for a source text
-/

namespace Tiny
open Spec

/-- Texts at which the lexer stays: the end, and a byte no token starts with. -/
def Stuck (T : List UInt8) : Prop :=
  T = [] ∨ (T ≠ [] ∧ Stop T ∧ ¬ OpenString T ∧ (∀ s t, Spelled s t → ¬ s <+: T) ∧ T.head? ≠ some 39)

theorem getToken_stuck (strtod) {n l T fuel} (hv : View n l T) (hT : Stuck T) (hf : T.length < fuel) :
    ∃ k l', l.getToken strtod fuel = .ok (k, l') ∧ sticky k ∧ View n l' T := by
  rcases hT with rfl | ⟨hne, hst, ho, hs, hh⟩
  · obtain ⟨l', e, v, -⟩ := getToken_eof strtod hv (.done .nil) hf
    exact ⟨_, l', e, .inl rfl, v⟩
  · obtain ⟨l', fuel', f', v', -, e'⟩ := getToken_layout strtod (w := []) (Nat.le_refl _) .nil (by simpa using hv) hst
      (by simpa using hf)
    rw [if_neg hne] at e'
    rw [e']
    obtain ⟨c, X, rfl⟩ : ∃ c X, T = c :: X := by
      cases T with
      | nil => exact absurd rfl hne
      | cons c X => exact ⟨c, X, rfl⟩
    have hsc := scan_ok strtod v' f' hst.2
    generalize l'.scan strtod fuel' = r at hsc
    cases hsc with
    | token hT h1 => exact absurd ⟨_, hT.symm⟩ (hs _ _ h1)
    | loop h => exact absurd h ho
    | error _ _ _ _ hY =>
      obtain ⟨Y, hY, ⟨h, -⟩ | ⟨-, rfl⟩⟩ := hY
      · exact absurd h hh
      · exact ⟨_, _, rfl, .inr rfl, hY⟩

theorem stream_stuck (strtod) {n T fuel} (hT : Stuck T) (hf : T.length < fuel) : ∀ {m : Nat} {l : Lexer}, View n l T →
    (Lexer.stream strtod fuel m l).length = m ∧ ∀ t ∈ Lexer.stream strtod fuel m l, sticky t.kind := by
  intro m
  induction m with
  | zero => intro l _; exact ⟨rfl, by simp [Lexer.stream]⟩
  | succ m ih =>
    intro l hv
    obtain ⟨k, l', e, hk, hv'⟩ := getToken_stuck strtod hv hT hf
    obtain ⟨i1, i2⟩ := ih hv'
    rw [Lexer.stream, e]
    refine ⟨by simp [i1], fun t ht => ?_⟩
    rcases List.mem_cons.mp ht with rfl | ht
    · exact hk
    · exact i2 t ht

theorem Tail3.push {t : Tk} {ts : List Tk} (h : Tail3 ts) : Tail3 (t :: ts) := by
  obtain ⟨us, a, b, c, rfl, h⟩ := h
  exact ⟨t :: us, a, b, c, rfl, h⟩

theorem tail3_of_sticky : ∀ {ts : List Tk}, 3 ≤ ts.length → (∀ t ∈ ts, sticky t.kind) → Tail3 ts
  | [a, b, c], _, h => ⟨[], a, b, c, rfl, h a (by simp), h b (by simp), h c (by simp)⟩
  | a :: b :: c :: d :: ts, _, h =>
    (tail3_of_sticky (ts := b :: c :: d :: ts) (by simp) fun t ht => h t (List.mem_cons_of_mem _ ht)).push

/-- Unless a call does not return, the calls end up delivering nothing but ends of file and errors. -/
theorem stream_tail (strtod) {n fuel} : ∀ {m : Nat} {T : List UInt8} {l : Lexer}, View n l T → T.length < fuel →
    T.length + 3 ≤ m → (Lexer.stream strtod fuel m l).length < m ∨ Tail3 (Lexer.stream strtod fuel m l) := by
  intro m
  induction m with
  | zero => intro T l _ _ h; omega
  | succ m ih =>
    intro T l hv hf hm
    have hg := getToken_got strtod hv hf
    rw [Lexer.stream]
    generalize l.getToken strtod fuel = r at hg
    have key : ∀ {U l' k}, View n l' U → U.length < T.length →
        (⟨k, l'.lexeme, l'.val, l'.line⟩ :: Lexer.stream strtod fuel m l').length < m + 1 ∨
          Tail3 (⟨k, l'.lexeme, l'.val, l'.line⟩ :: Lexer.stream strtod fuel m l') := by
      intro U l' k hU hlen
      rcases ih hU (by omega) (by omega) with h | h
      · exact .inl (by simpa using h)
      · exact .inr h.push
    have key2 : ∀ {U l' k}, View n l' U → Stuck U → U.length ≤ T.length → sticky k →
          Tail3 (⟨k, l'.lexeme, l'.val, l'.line⟩ :: Lexer.stream strtod fuel m l') := by
      intro U l' k hU hs hlen hk
      obtain ⟨i1, i2⟩ := stream_stuck strtod hs (fuel := fuel) (by omega) (m := m) hU
      refine tail3_of_sticky (by simp [i1]; omega) fun t ht => ?_
      rcases List.mem_cons.mp ht with rfl | ht
      · exact hk
      · exact i2 t ht
    cases hg with
    | @token w s u t k l' hT hw hs _ _ hv' _ =>
      refine key hv' ?_
      obtain ⟨c, cs, rfl, _⟩ := hs.class.head
      rw [hT]; simp; omega
    | eof h1 hv' _ => exact .inr (key2 hv' (.inl rfl) (by simp) (.inl rfl))
    | loop => exact .inl (by simp)
    | @error w X l' hT hw hst hne ho hs _ _ hY =>
      obtain ⟨Y, hY, ⟨-, h⟩ | ⟨h, rfl⟩⟩ := hY
      · have h1 := h.length_le
        have h2 := List.length_pos_iff.mpr hne
        exact key hY (by rw [hT]; simp at h1 ⊢; omega)
      · exact .inr (key2 hY (.inr ⟨hne, hst, ho, hs, h⟩) (by rw [hT]; simp) (.inr rfl))

/-- A source without string literals never holds up the lexer. -/
theorem stream_full (strtod) {n fuel} : ∀ {m : Nat} {T : List UInt8} {l : Lexer}, View n l T → T.length < fuel →
    34 ∉ T → (Lexer.stream strtod fuel m l).length = m := by
  intro m
  induction m with
  | zero => intro T l _ _ _; rfl
  | succ m ih =>
    intro T l hv hf hq
    have hg := getToken_got strtod hv hf
    rw [Lexer.stream]
    generalize l.getToken strtod fuel = r at hg
    have key : ∀ {U l' k}, View n l' U → U <:+ T →
        (⟨k, l'.lexeme, l'.val, l'.line⟩ :: Lexer.stream strtod fuel m l').length = m + 1 := by
      intro U l' k hU hs
      have := ih hU (Nat.lt_of_le_of_lt hs.length_le hf) fun h => hq (hs.subset h)
      simp [this]
    cases hg with
    | token hT hw hs _ _ hv' _ => exact key hv' ⟨_, hT.symm⟩
    | eof h1 hv' _ => exact key hv' List.nil_suffix
    | loop hT _ ho =>
      refine absurd ?_ hq
      rw [hT]
      cases ho <;> simp
    | @error w X l' hT hw hst hne ho hs _ _ hY =>
      obtain ⟨Y, hY, ⟨-, h⟩ | ⟨h, rfl⟩⟩ := hY
      · exact key hY (h.trans ((List.tail_suffix _).trans ⟨_, hT.symm⟩))
      · exact key hY ⟨_, hT.symm⟩

/-- What the parser sees of a token: `tokenOf`. -/
def tkToken (strtod : List UInt8 → BitVec 64) (t : Tk) : Option Token :=
  tokenOf strtod t.kind { Lexer.init [] with lexeme := t.lexeme, val := t.val }

theorem tkToken_eq (strtod) (k : Tok) (l : Lexer) : tkToken strtod ⟨k, l.lexeme, l.val, l.line⟩ = tokenOf strtod k l := rfl

theorem stream_eof (strtod) {n fuel} : ∀ {N : Nat} {w : List UInt8} {l : Lexer}, View n l w → LastLayout w →
    w.length < fuel → (Lexer.stream strtod fuel N l).length = N ∧
      ∀ t ∈ Lexer.stream strtod fuel N l, t.kind = .eofTok ∧ t.line = l.line + newlines w := by
  intro N
  induction N with
  | zero => intro w l _ _ _; exact ⟨rfl, by simp [Lexer.stream]⟩
  | succ N ih =>
    intro w l hv hw hf
    obtain ⟨l', e', v', i'⟩ := getToken_eof strtod hv hw hf
    obtain ⟨i1, i2⟩ := ih v' (.done .nil) (by simp; omega)
    rw [Lexer.stream, e']
    refine ⟨by simp [i1], fun t ht => ?_⟩
    rcases List.mem_cons.mp ht with rfl | ht
    · exact ⟨rfl, i'⟩
    · obtain ⟨j1, j2⟩ := i2 t ht
      exact ⟨j1, by rw [j2, i']; rfl⟩

/-- A well-formed source: its tokens, then the end of the file for ever. -/
theorem stream_reads (strtod) {n m src ts e} (h : Reads m src ts e) : ∀ {l fuel} (N : Nat), View n l src → l.line = m →
    src.length < fuel → ts.length ≤ N → ∃ L E, Lexer.stream strtod fuel N l = L ++ E ∧
      L.map (fun t => (tkToken strtod t, t.line)) = ts.map (fun x => (some x.tok, x.line)) ∧
      E.length + ts.length = N ∧ ∀ t ∈ E, t.kind = .eofTok ∧ t.line = e := by
  induction h with
  | done hw =>
    intro l fuel N hv hl hf _
    obtain ⟨i1, i2⟩ := stream_eof strtod (N := N) hv hw hf
    exact ⟨[], Lexer.stream strtod fuel N l, rfl, rfl, by simpa using i1, fun t ht => by rw [← hl]; exact i2 t ht⟩
  | @token m w s u t ts e hw hs hlong _ ih =>
    intro l fuel N hv hl hf hN
    obtain ⟨N, rfl⟩ : ∃ k, N = k + 1 := ⟨N - 1, by simp at hN; omega⟩
    obtain ⟨k, l1, e1, t1, v1, i1⟩ := getToken_token strtod hv hw hs hlong hf
    obtain ⟨L, E, g1, g2, g3, g4⟩ := ih (fuel := fuel) N v1 (by rw [i1, hl]) (by simp at hf; omega)
      (by simpa using hN)
    refine ⟨⟨k, l1.lexeme, l1.val, l1.line⟩ :: L, E, ?_, ?_, by simp; omega, g4⟩
    · rw [Lexer.stream, e1]; simp [g1]
    · rw [List.map_cons, List.map_cons, g2, tkToken_eq, t1, i1, hl]

theorem stream_take (strtod) (fuel : Nat) : ∀ (m k : Nat) (l : Lexer),
    Lexer.stream strtod fuel m l = (Lexer.stream strtod fuel (m + k) l).take m
  | 0, _, _ => by simp [Lexer.stream]
  | m + 1, k, l => by
    rw [show m + 1 + k = (m + k) + 1 by omega, Lexer.stream, Lexer.stream]
    cases l.getToken strtod fuel with
    | ok x => obtain ⟨t, l'⟩ := x; simp [stream_take strtod fuel m k l']
    | _ => rfl

end Tiny
