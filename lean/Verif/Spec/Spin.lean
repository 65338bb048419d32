import Verif.Spec.Structures

/-!
# Specification: total spin

The first `N` spatial orbitals; spatial orbital `p` has spin orbitals `2p` (alpha) and `2p+1` (beta).
-/

namespace SQ

/-- `Σ_p a†_{p,x} a_{p,y}` with `x`, `y` equal to 0 (alpha) or 1 (beta). -/
noncomputable def spinSum (N x y : ℕ) : FOp ℝ :=
  ∑ p ∈ Finset.range N, cr (2 * p + x) * an (2 * p + y)

/-- `S₊ = Σ_p a†_{pα} a_{pβ}`. -/
noncomputable def sPlus (N : ℕ) : FOp ℝ := spinSum N 0 1
/-- `S₋ = Σ_p a†_{pβ} a_{pα}`. -/
noncomputable def sMinus (N : ℕ) : FOp ℝ := spinSum N 1 0
/-- `S_z = 1/2 Σ_p (a†_{pα} a_{pα} - a†_{pβ} a_{pβ})`. -/
noncomputable def sZ (N : ℕ) : FOp ℝ := (1 / 2 : ℝ) • (spinSum N 0 0 - spinSum N 1 1)
/-- `S² = S₋ S₊ + S_z (S_z + 1)`. -/
noncomputable def sSq (N : ℕ) : FOp ℝ := sMinus N * sPlus N + sZ N * (sZ N + 1)

/-- The state has total spin `s` and projection `m`. -/
def HasSpin (N : ℕ) (s m : ℝ) (x : Fock ℝ) : Prop := sSq N x = (s * (s + 1)) • x ∧ sZ N x = m • x

/-- Entries of an ansatz that keep the spin: spin-adapted ones, and excitations of an electron pair from
one spatial orbital to another. -/
inductive SpinKeeping : String → List ℕ → Prop
  | adapted {ty : String} (h : ty ∈ ["sa_single", "sa_double_1", "sa_double_2", "sa_double_3", "sa_double_4",
      "sa_double_5"]) (idx : List ℕ) : SpinKeeping ty idx
  | pair (i a : ℕ) : SpinKeeping "double" [2 * i, 2 * i + 1, 2 * a, 2 * a + 1]

/-- Every entry of the ansatz keeps the spin. -/
def KeepsSpin (types : List String) (indices : List (List ℕ)) : Prop :=
  ∀ x ∈ types.zip indices, SpinKeeping x.1 x.2

/-- Every spatial orbital is empty or doubly occupied. -/
def ClosedShell (S : Finset ℕ) : Prop := ∀ p, 2 * p ∈ S ↔ 2 * p + 1 ∈ S

/-- The call asks for spin-adapted excitations and pair excitations only. -/
def UpsCall.Adapted : UpsCall → Prop
  | .tiled _ _ => True
  | .fucc _ o => ∀ k ∈ ["S", "GS", "D", "GD", "T", "Q", "5", "6"], o.flag k = 0
  | .sds _ o => o.flag "D" = 0

end SQ
