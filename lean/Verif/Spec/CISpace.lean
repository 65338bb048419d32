import Mathlib.Data.Finset.Card
import Mathlib.Data.Finset.Range
import Mathlib.Data.Finset.SDiff
import Mathlib.Data.Finset.Image
import Mathlib.Data.Int.Basic

/-!
# Specification: which determinants belong to a space

Spin orbital `2p` is the alpha, `2p+1` the beta spin orbital of spatial orbital `p`.
-/

namespace SQ

/-- The spatial orbitals (of `n`) occupied with spin `σ` (0 alpha, 1 beta). -/
def spatOf (n σ : ℕ) (S : Finset ℕ) : Finset ℕ := (Finset.range n).filter fun p => 2 * p + σ ∈ S

/-- Complete active space: `na` alpha and `nb` beta electrons in `n` orbitals. -/
def InCAS (n : ℕ) (na nb : ℤ) (S : Finset ℕ) : Prop :=
  S ⊆ Finset.range (2 * n) ∧ ((spatOf n 0 S).card : ℤ) = na ∧ ((spatOf n 1 S).card : ℤ) = nb

/-- Number of inactive orbitals not occupied with spin `σ`. -/
def holes (nI σ : ℕ) (S : Finset ℕ) : ℕ := (Finset.range nI \ spatOf nI σ S).card

/-- Number of virtual orbitals occupied with spin `σ`. -/
def particles (nI nA nV σ : ℕ) (S : Finset ℕ) : ℕ :=
  ((spatOf (nI + nA + nV) σ S).filter fun p => nI + nA ≤ p).card

/-- At most `k` holes and at most `k` particles of spin `σ`. -/
def AtMost (nI nA nV k σ : ℕ) (S : Finset ℕ) : Prop :=
  holes nI σ S ≤ k ∧ particles nI nA nV σ S ≤ k

/-- The extended space: the right numbers of electrons and
* singles: one spin as in the reference, the other with at most one hole and one particle;
* singles and doubles: one spin as in the reference and the other with at most two holes and two
  particles, or both with at most one hole and one particle. -/
def InExtended (nI nA nV : ℕ) (na nb : ℤ) (doubles : Bool) (S : Finset ℕ) : Prop :=
  InCAS (nI + nA + nV) (na + nI) (nb + nI) S ∧
  if doubles then
    (AtMost nI nA nV 2 0 S ∧ AtMost nI nA nV 0 1 S) ∨ (AtMost nI nA nV 0 0 S ∧ AtMost nI nA nV 2 1 S) ∨
      (AtMost nI nA nV 1 0 S ∧ AtMost nI nA nV 1 1 S)
  else
    (AtMost nI nA nV 1 0 S ∧ AtMost nI nA nV 0 1 S) ∨ (AtMost nI nA nV 0 0 S ∧ AtMost nI nA nV 1 1 S)

end SQ
