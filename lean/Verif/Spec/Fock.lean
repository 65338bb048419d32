import Mathlib.LinearAlgebra.Finsupp.LinearCombination
import Mathlib.Algebra.Module.LinearMap.End
import Mathlib.Algebra.Algebra.Basic

/-!
# Specification: fermionic Fock space

This file does not model any code.  It is the textbook object the operator classes of the
repository are about: determinants are finite sets of occupied spin orbitals, states are finite
linear combinations of determinants, and annihilation/creation operators act with the usual
sign `(-1)^(number of occupied spin orbitals below p)`.
-/

namespace SQ

open Finsupp

/-- States: finite formal linear combinations of determinants (sets of occupied spin orbitals). -/
def Fock (R : Type*) [CommRing R] := Finset ℕ →₀ R

noncomputable instance (R : Type*) [CommRing R] : AddCommGroup (Fock R) :=
  inferInstanceAs (AddCommGroup (Finset ℕ →₀ R))

noncomputable instance (R : Type*) [CommRing R] : Module R (Fock R) :=
  inferInstanceAs (Module R (Finset ℕ →₀ R))

/-- Linear operators on Fock space. -/
abbrev FOp (R : Type*) [CommRing R] := Module.End R (Fock R)

variable {R : Type*} [CommRing R]

/-- The determinant `|S⟩` with coefficient `c`. -/
noncomputable def sgl (S : Finset ℕ) (c : R) : Fock R := Finsupp.single S c

/-- The determinant `|S⟩`. -/
noncomputable abbrev ket (S : Finset ℕ) : Fock R := sgl S 1

/-- Coefficient of the determinant `S` in a state. -/
def coeff (x : Fock R) (S : Finset ℕ) : R := (show Finset ℕ →₀ R from x) S

/-- The linear operator with prescribed action on determinants. -/
noncomputable def liftOp (f : Finset ℕ → Fock R) : FOp R :=
  (Finsupp.linearCombination R f : (Finset ℕ →₀ R) →ₗ[R] Fock R)

/-- Phase picked up when acting on spin orbital `p`: parity of occupied spin orbitals below `p`. -/
def phase (S : Finset ℕ) (p : ℕ) : R := (-1) ^ (S.filter (· < p)).card

/-- Annihilation operator `a_p`. -/
noncomputable def an (p : ℕ) : FOp R :=
  liftOp fun S => if p ∈ S then sgl (S.erase p) (phase S p) else 0

/-- Creation operator `a†_p`. -/
noncomputable def cr (p : ℕ) : FOp R :=
  liftOp fun S => if p ∈ S then 0 else sgl (insert p S) (phase S p)

/-- One ladder operator: `(p, true)` is `a†_p`, `(p, false)` is `a_p`. -/
noncomputable def ladder (o : ℕ × Bool) : FOp R := if o.2 then cr o.1 else an o.1

/-- A string of ladder operators, leftmost factor first (so the last one acts first). -/
noncomputable def strOp (s : List (ℕ × Bool)) : FOp R := (s.map ladder).prod

/-- A finite sum of strings with coefficients. -/
noncomputable def sumOp (d : List (List (ℕ × Bool) × R)) : FOp R :=
  (d.map fun kv => kv.2 • strOp kv.1).sum

/-- The (real, bilinear) inner product in which determinants are orthonormal. -/
noncomputable def inner (x y : Fock R) : R := (show Finset ℕ →₀ R from x).sum fun S c => c * coeff y S

/-- `B` is the adjoint of `A`. -/
def IsAdjoint (A B : FOp R) : Prop := ∀ x y : Fock R, inner (A x) y = inner x (B y)

/-- Extended normal order: creation operators first; indices strictly descending within the
creation block and within the annihilation block. -/
def NormalOrdered (s : List (ℕ × Bool)) : Prop :=
  s.Pairwise fun a b => (a.2 = true ∧ b.2 = false) ∨ (a.2 = b.2 ∧ b.1 < a.1)

instance (s : List (ℕ × Bool)) : Decidable (NormalOrdered s) := by
  unfold NormalOrdered; infer_instance

end SQ
