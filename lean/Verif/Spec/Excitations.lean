import Verif.Spec.Fock

/-!
# Specification: textbook excitation operators

Spatial orbital `p` has spin orbitals `2p` (alpha) and `2p+1` (beta).
-/

namespace SQ

variable {R : Type*} [CommRing R]

/-- `E_pq = Σ_σ a†_{pσ} a_{qσ}`. -/
noncomputable def E (p q : ℕ) : FOp R :=
  cr (2 * p) * an (2 * q) + cr (2 * p + 1) * an (2 * q + 1)

/-- `e_pqrs = Σ_{στ} a†_{pσ} a†_{rτ} a_{sτ} a_{qσ}`. -/
noncomputable def e (p q r s : ℕ) : FOp R :=
  cr (2 * p) * cr (2 * r) * an (2 * s) * an (2 * q)
  + cr (2 * p) * cr (2 * r + 1) * an (2 * s + 1) * an (2 * q)
  + cr (2 * p + 1) * cr (2 * r) * an (2 * s) * an (2 * q + 1)
  + cr (2 * p + 1) * cr (2 * r + 1) * an (2 * s + 1) * an (2 * q + 1)

/-- The operator string `a†_{c1} a†_{c2} ... a_{a1} a_{a2} ...`. -/
noncomputable def excite (C A : List ℕ) : FOp R := (C.map cr).prod * (A.map an).prod

/-- Kronecker delta. -/
def delta (p q : ℕ) : R := if p = q then 1 else 0

/-- One-electron operator `Σ_{pq<n} h_pq E_pq`. -/
noncomputable def oneOp (h : ℕ → ℕ → R) (n : ℕ) : FOp R :=
  ∑ p ∈ Finset.range n, ∑ q ∈ Finset.range n, h p q • E p q

/-- Twice the two-electron operator: `Σ_{pqrs<n} g_pqrs e_pqrs`. -/
noncomputable def twoOp (g : ℕ → ℕ → ℕ → ℕ → R) (n : ℕ) : FOp R :=
  ∑ p ∈ Finset.range n, ∑ q ∈ Finset.range n, ∑ r ∈ Finset.range n, ∑ s ∈ Finset.range n,
    g p q r s • e p q r s

/-- Total weight of the occupied spin orbitals of a determinant. With `w` the indicator of a set of
spin orbitals this is the number of electrons in that set. -/
def weight (w : ℕ → ℤ) (S : Finset ℕ) : ℤ := ∑ p ∈ S, w p

/-- Number of alpha electrons. -/
def numAlpha (S : Finset ℕ) : ℕ := (S.filter fun p => p % 2 = 0).card
/-- Number of beta electrons. -/
def numBeta (S : Finset ℕ) : ℕ := (S.filter fun p => p % 2 = 1).card

/-- `T` maps every determinant into determinants with the same numbers of alpha and beta electrons. -/
def ConservesSpin (T : FOp R) : Prop :=
  ∀ S S' : Finset ℕ, coeff (T (ket S)) S' ≠ 0 → numAlpha S' = numAlpha S ∧ numBeta S' = numBeta S

/-- `T` maps every determinant into determinants with the same number of electrons. -/
def ConservesNumber (T : FOp R) : Prop :=
  ∀ S S' : Finset ℕ, coeff (T (ket S)) S' ≠ 0 → S'.card = S.card

/-- States whose determinants have all spin orbitals of the first `nI` spatial orbitals filled and
none beyond the first `nI + nA` spatial orbitals. -/
def ActiveState (nI nA : ℕ) (x : Fock R) : Prop :=
  ∀ S, coeff x S ≠ 0 → (∀ p, p < 2 * nI → p ∈ S) ∧ (∀ p ∈ S, p < 2 * (nI + nA))

/-- States whose determinants have at most one empty spin orbital among the first `nI` spatial
orbitals and at most one electron beyond the first `nI + nA` spatial orbitals. -/
def NearState (nI nA : ℕ) (x : Fock R) : Prop :=
  ∀ S, coeff x S ≠ 0 → ((Finset.range (2 * nI)).filter (· ∉ S)).card ≤ 1 ∧
    (S.filter (2 * (nI + nA) ≤ ·)).card ≤ 1

end SQ
