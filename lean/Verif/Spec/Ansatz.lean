import Verif.Spec.Exponential
import Verif.Spec.Excitations
import Verif.Spec.CIState

/-!
# Specification: the factors of the unitary product ansatz
-/

namespace SQ

/-- `y = exp(θ T) x`: every coefficient of `y` is the sum of the exponential series. -/
def ExpTo (T : FOp ℝ) (θ : ℝ) (x y : Fock ℝ) : Prop :=
  ∀ S : Finset ℕ,
    HasSum (fun k : ℕ => θ ^ k / (k.factorial : ℝ) * coeff ((T ^ k) x) S) (coeff y S)

/-- The name of a `k`-fold spin-orbital excitation. -/
def spinName : ℕ → String
  | 1 => "single"
  | 2 => "double"
  | 3 => "triple"
  | 4 => "quadruple"
  | 5 => "quintuple"
  | 6 => "sextuple"
  | _ => ""

/-- `Excitation off n ty idx T`: the type name `ty` with index list `idx` is an excitation among `n`
active spatial orbitals, and `T` is its anti-Hermitian generator when the active orbitals start at
spatial orbital `off`.
* spin-orbital excitations from `I` to `A` (as many beta orbitals in `I` as in `A`):
  `a†_{A1} a†_{A2} ... a_{I2} a_{I1} - h.c.`;
* spin-adapted singles `E_ai - E_ia`;
* spin-adapted doubles `1/2 E_ai E_ai - h.c.`, `1/√2 E_ai E_bi - h.c.`, `1/√2 E_ai E_aj - h.c.`,
  `1/2 (E_ai E_bj + E_aj E_bi) - h.c.`, `1/(2√3) (E_ai E_bj - E_aj E_bi) - h.c.` with different orbital
  names meaning different orbitals. -/
inductive Excitation (off n : ℕ) : String → List ℕ → FOp ℝ → Prop
  | spin (k : ℕ) (hk : 1 ≤ k ∧ k ≤ 6) (I A : List ℕ) (hI : I.length = k) (hA : A.length = k)
      (hr : ∀ p ∈ I ++ A, p < 2 * n) (hs : I.countP (· % 2 = 1) = A.countP (· % 2 = 1)) :
      Excitation off n (spinName k) (I ++ A)
        (excite (A.map (· + 2 * off)) (I.map (· + 2 * off)).reverse
          - excite (I.map (· + 2 * off)) (A.map (· + 2 * off)).reverse)
  | saSingle (i a : ℕ) (hr : ∀ p ∈ [i, a], p < n) :
      Excitation off n "sa_single" [i, a] (E (a + off) (i + off) - E (i + off) (a + off))
  | saDouble1 (i a : ℕ) (hd : i ≠ a) (hr : ∀ p ∈ [i, a], p < n) :
      Excitation off n "sa_double_1" [i, i, a, a]
        ((1 / 2 : ℝ) • (E (a + off) (i + off) * E (a + off) (i + off)
          - E (i + off) (a + off) * E (i + off) (a + off)))
  | saDouble2 (i a b : ℕ) (hd : [i, a, b].Nodup) (hr : ∀ p ∈ [i, a, b], p < n) :
      Excitation off n "sa_double_2" [i, i, a, b]
        ((Real.sqrt 2)⁻¹ • (E (a + off) (i + off) * E (b + off) (i + off)
          - E (i + off) (b + off) * E (i + off) (a + off)))
  | saDouble3 (i j a : ℕ) (hd : [i, j, a].Nodup) (hr : ∀ p ∈ [i, j, a], p < n) :
      Excitation off n "sa_double_3" [i, j, a, a]
        ((Real.sqrt 2)⁻¹ • (E (a + off) (i + off) * E (a + off) (j + off)
          - E (j + off) (a + off) * E (i + off) (a + off)))
  | saDouble4 (i j a b : ℕ) (hd : [i, j, a, b].Nodup) (hr : ∀ p ∈ [i, j, a, b], p < n) :
      Excitation off n "sa_double_4" [i, j, a, b]
        ((1 / 2 : ℝ) • (E (a + off) (i + off) * E (b + off) (j + off)
            + E (a + off) (j + off) * E (b + off) (i + off)
          - (E (j + off) (b + off) * E (i + off) (a + off)
            + E (i + off) (b + off) * E (j + off) (a + off))))
  | saDouble5 (i j a b : ℕ) (hd : [i, j, a, b].Nodup) (hr : ∀ p ∈ [i, j, a, b], p < n) :
      Excitation off n "sa_double_5" [i, j, a, b]
        ((1 / (2 * Real.sqrt 3)) • (E (a + off) (i + off) * E (b + off) (j + off)
            - E (a + off) (j + off) * E (b + off) (i + off)
          - (E (j + off) (b + off) * E (i + off) (a + off)
            - E (i + off) (b + off) * E (j + off) (a + off))))

/-- The determinant space has `n` active orbitals starting at its offset and contains, with every
determinant, all determinants with the same numbers of alpha and beta electrons that differ from it in
active orbitals only.  (`C26_spaces`: true for the spaces the program builds.) -/
structure AnsatzSpace (ci : CIInfo) (n : ℕ) : Prop where
  valid : ci.Valid
  fits : ci.offset + n ≤ ci.nA
  closed : ∀ S S' : Finset ℕ, ci.Mem S →
    (∀ p, ¬ (2 * ci.offset ≤ p ∧ p < 2 * (ci.offset + n)) → (p ∈ S' ↔ p ∈ S)) →
    numAlpha S' = numAlpha S → numBeta S' = numBeta S → ci.Mem S'

/-- `y` arises from `x` by `exp(θ₁ T₁)`, then `exp(θ₂ T₂)`, ...: the first factor acts first. -/
inductive ExpChain : List (FOp ℝ × ℝ) → Fock ℝ → Fock ℝ → Prop
  | nil (x : Fock ℝ) : ExpChain [] x x
  | cons {T : FOp ℝ} {θ : ℝ} {l : List (FOp ℝ × ℝ)} {x y z : Fock ℝ} :
      ExpTo T θ x y → ExpChain l y z → ExpChain ((T, θ) :: l) x z

/-- The lists of names and indices of an ansatz, and the generators they stand for. -/
inductive Layout (off n : ℕ) : List String → List (List ℕ) → List (FOp ℝ) → Prop
  | nil : Layout off n [] [] []
  | cons {ty : String} {ix : List ℕ} {T : FOp ℝ} {types : List String} {indices : List (List ℕ)}
      {Ts : List (FOp ℝ)} : Excitation off n ty ix T → Layout off n types indices Ts →
      Layout off n (ty :: types) (ix :: indices) (T :: Ts)

/-- How many indices an excitation type takes. -/
def arity : String → Option ℕ
  | "single" => some 2
  | "double" => some 4
  | "triple" => some 6
  | "quadruple" => some 8
  | "quintuple" => some 10
  | "sextuple" => some 12
  | "sa_single" => some 2
  | "sa_double_1" => some 4
  | "sa_double_2" => some 4
  | "sa_double_3" => some 4
  | "sa_double_4" => some 4
  | "sa_double_5" => some 4
  | _ => none

/-- As many creation as annihilation operators of each spin. -/
def SpinBalanced (s : Str) : Prop :=
  s.countP (fun o => o.2 && o.1 % 2 == 0) = s.countP (fun o => !o.2 && o.1 % 2 == 0) ∧
  s.countP (fun o => o.2 && o.1 % 2 == 1) = s.countP (fun o => !o.2 && o.1 % 2 == 1)

/-- The angle really used: angles below `1e-28` are skipped. -/
noncomputable def effAngle (θ : ℝ) : ℝ := if |θ| < (10 : ℝ)⁻¹ ^ 28 then 0 else θ

/-- Normalisation of the generators inside the UCC operator: spin-adapted singles carry `1/√2`. -/
noncomputable def uccFactor (ty : String) : ℝ := if ty = "sa_single" then (Real.sqrt 2)⁻¹ else 1

/-- The UCC operator `∑ᵢ θᵢ cᵢ Tᵢ`. -/
noncomputable def uccOp : List String → List (FOp ℝ) → List ℝ → FOp ℝ
  | ty :: types, T :: Ts, θ :: θs => (effAngle θ * uccFactor ty) • T + uccOp types Ts θs
  | _, _, _ => 0

end SQ
