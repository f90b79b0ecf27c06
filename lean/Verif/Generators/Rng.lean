import Verif.Np

/-! Random generators as the sequence generators see them (numpy.random.RandomState, library). -/

namespace Hyp.Gen

/-- `np.random.RandomState`: an arbitrary deterministic state machine. `seeded`: `RandomState(seed=…)`;
`randint s lo hi`: an integer in `[lo, hi)`, `none` = `ValueError` when the interval is empty;
`shuffle s n`: `rng.shuffle(np.arange(n))`; `choose s l k`: `rng.choice(l, size=k, replace=False)`, `none` = `ValueError` when
`k` is larger than the list. All theorems hold for every such machine (hence for every outcome of the draws). -/
structure Rng where
  σ : Type
  seeded : Int → σ
  randint : σ → Int → Int → Option (Int × σ)
  shuffle : σ → Nat → List Nat × σ
  randint_range : ∀ s lo hi v s', randint s lo hi = some (v, s') → lo ≤ v ∧ v < hi
  randint_total : ∀ s lo hi, lo < hi → ∃ v s', randint s lo hi = some (v, s')
  shuffle_perm : ∀ s n, (shuffle s n).1.Perm (List.range n)

/-- a concrete machine: a counter, used in the examples. -/
def counterRng : Rng where
  σ := Int
  seeded := id
  randint s lo hi := if lo < hi then some (lo + s.emod (hi - lo), s + 1) else none
  shuffle s n := ((List.range n).reverse, s + 1)
  randint_range := by
    intro s lo hi v s' h
    split at h
    · rename_i hlt
      simp only [Option.some.injEq, Prod.mk.injEq] at h
      have h1 : 0 ≤ s.emod (hi - lo) := Int.emod_nonneg s (by omega)
      have h2 : s.emod (hi - lo) < hi - lo := Int.emod_lt_of_pos s (by omega)
      omega
    · simp at h
  randint_total := by
    intro s lo hi h
    exact ⟨_, _, if_pos h⟩
  shuffle_perm := by
    intro s n
    exact List.reverse_perm _

end Hyp.Gen
