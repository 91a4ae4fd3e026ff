import Verif.Proofs.Arena

/-!
# C07–C08: the arena
-/

namespace Tiny
open Arena

/-- **C07.** For every sequence of requests with power-of-two alignments, every request is served,
every block lies inside a page the arena owns at the end (within its capacity), starts at a multiple of
its alignment, has the requested size, and no two blocks overlap.  (Later requests are part of the
sequence, so they do not disturb earlier blocks.) -/
theorem c07_arena_blocks (rs : List Req) (h : ∀ r ∈ rs, r.size < 2 ^ 62 ∧ ∃ k < 62, r.align = 2 ^ k) :
    ∃ a bs, run Arena.init rs = .ok (a, bs) ∧ bs.length = rs.length ∧
      (∀ b ∈ bs, b.align ∣ b.off ∧ ∃ p, a.heap b.page = some p ∧ b.off + b.size ≤ p.cap) ∧
      (∀ (i : Nat) (r : Req) (b : Block), rs[i]? = some r → bs[i]? = some b →
        b.size = r.size ∧ b.align = r.align) ∧
      bs.Pairwise (fun b c => b.page ≠ c.page ∨ b.off + b.size ≤ c.off ∨ c.off + c.size ≤ b.off) := by
  obtain ⟨a, ids, bs, h1, h2, _, h4, h5, h6, h7⟩ := run_spec rs Arena.init [] init_inv h
  refine ⟨a, bs, h1, h4, ?_, h6, h7⟩
  intro b hb
  obtain ⟨⟨p, hp, hle⟩, hd, _⟩ := h5 b hb
  exact ⟨hd, p, hp, Nat.le_trans hle (h2.used _ p hp).1⟩

/-- **C07**, addresses: when the page's storage starts at a multiple of the alignment, so does the
block. -/
theorem c07_arena_address (base off align : Nat) (h1 : align ∣ base) (h2 : align ∣ off) :
    align ∣ base + off := Nat.dvd_add h1 h2

example : (match run Arena.init [⟨10, 8⟩, ⟨3, 1⟩, ⟨5000, 8⟩, ⟨16, 8⟩, ⟨4090, 4⟩, ⟨1, 1⟩] with
    | .ok (_, bs) => bs.map (fun b => (b.page, b.off))
    | _ => []) = [(0, 0), (0, 10), (1, 0), (0, 16), (2, 0), (2, 4090)] := by decide +kernel

/-- **C07**, the rounding alone: for every power of two the result is a multiple of it, is not below
the argument, and wastes at most the alignment. -/
theorem c07_rounding (value k : Nat) (hv : value < 2 ^ 62) (hk : k < 62) :
    ∃ s, nextMultipleOf value (2 ^ k) = .ok s ∧ value ≤ s ∧ 2 ^ k ∣ s ∧ s ≤ value + 2 ^ k :=
  nextMultipleOf_pow2 hv hk

example : nextMultipleOf 13 8 = .ok 16 ∧ nextMultipleOf 16 8 = .ok 24 := by decide

/-- For an even alignment that is not a power of two the rounding is wrong (the assertion in the code
lets it pass): a block would not be aligned. -/
theorem c07_rounding_not_power_of_two : nextMultipleOf 7 6 = .ok 8 := by decide

/-- **C08.** After every sequence of requests, destroying the arena terminates, never reads a freed
page, and frees every page the arena ever allocated (identities below `fresh`) exactly once. -/
theorem c08_arena_destroy (rs : List Req) (h : ∀ r ∈ rs, r.size < 2 ^ 62 ∧ ∃ k < 62, r.align = 2 ^ k) :
    ∃ a bs F, run Arena.init rs = .ok (a, bs) ∧ ∀ fuel, F ≤ fuel →
      ∃ heap freed, destroy fuel a = .ok (heap, freed) ∧ freed.Nodup ∧
        (∀ i, i ∈ freed ↔ i < a.fresh) ∧ ∀ i, heap i = none := by
  obtain ⟨a, ids, bs, h1, h2, _⟩ := run_spec rs Arena.init [] init_inv h
  refine ⟨a, bs, ids.length + 1, h1, ?_⟩
  intro fuel hf
  refine ⟨_, ids, destroyLoop_spec ids a.heap a.head fuel h2.chain h2.nodup (by omega), h2.nodup,
    h2.fresh, ?_⟩
  intro i
  by_cases hi : i ∈ ids
  · simp [hi]
  · simp only [hi, if_false]
    apply Classical.byContradiction
    intro hn
    exact hi ((h2.live i).1 hn)

example : (match run Arena.init [⟨10, 8⟩, ⟨5000, 8⟩, ⟨4090, 4⟩] with
    | .ok (a, _) => (match destroy 10 a with | .ok (_, fr) => fr | _ => [])
    | _ => []) = [2, 0, 1] := by decide +kernel

end Tiny
