import Verif.Lemmas.FoldKeys

/-! # Orbitals and spin balance of the Hamiltonian operators -/

namespace SQ

variable {K : Type*} [Field K] {tiny big : K → Bool} {P : ℕ → Prop}

/-- Keeps the key invariant. -/
def Keeps (P : ℕ → Prop) (f : Dict K → Res (Dict K)) : Prop :=
  ∀ H, Keys P (fun _ => 0) H → RKeys P (fun _ => 0) (f H)

theorem Keeps.pure : Keeps P (fun H : Dict K => .ok H) := fun _ h => RKeys.ok h

theorem Keeps.seq {f g : Dict K → Res (Dict K)} (hf : Keeps P f) (hg : Keeps P g) :
    Keeps P (fun H => f H >>= g) := fun H h => RKeys.bind' (hf H h) hg

theorem Keeps.foldlM {α : Type*} {f : Dict K → α → Res (Dict K)} (l : List α)
    (h : ∀ a ∈ l, Keeps P (fun H => f H a)) : Keeps P (fun H => l.foldlM f H) := by
  induction l with
  | nil => exact Keeps.pure
  | cons a l ih =>
    have := (h a (by simp)).seq (ih fun b hb => h b (by simp [hb]))
    intro H hH
    show RKeys P (fun _ => 0) (List.foldlM f H (a :: l))
    rw [List.foldlM_cons]
    exact this H hH

theorem keeps_addE {p q : ℕ} (c : K) (hp : Both P p) (hq : Both P q) :
    Keeps P (fun H => addE tiny H c p q) := fun _ h =>
  RKeys.bind' (keys_Epq hp hq) fun _ hA => RKeys.ok (h.fadd (hA.frmul c))

theorem keeps_addEE {p q r s : ℕ} (c : K) (hp : Both P p) (hq : Both P q) (hr : Both P r) (hs : Both P s) :
    Keeps P (fun H => addEE tiny H c p q r s) := fun _ h =>
  RKeys.bind' (keys_epqrs hp hq hr hs) fun _ hA => RKeys.ok (h.fadd (hA.frmul _))

theorem Keeps.ite {f g : Dict K → Res (Dict K)} (c : Prop) [Decidable c] (hf : Keeps P f) (hg : Keeps P g) :
    Keeps P (fun H => if c then f H else g H) := by
  intro H h
  dsimp only
  split
  · exact hf H h
  · exact hg H h

theorem keeps_addEif {p q : ℕ} (c : K) (hp : Both P p) (hq : Both P q) :
    Keeps P (fun H => addEif tiny big H c p q) := Keeps.ite _ (keeps_addE c hp hq) Keeps.pure

theorem keeps_addEEif {p q r s : ℕ} (c : K) (hp : Both P p) (hq : Both P q) (hr : Both P r) (hs : Both P s) :
    Keeps P (fun H => addEEif tiny big H c p q r s) := Keeps.ite _ (keeps_addEE c hp hq hr hs) Keeps.pure

theorem both_lt {n p : ℕ} (h : p < n) : Both (· < 2 * n) p := ⟨by dsimp only; omega, by dsimp only; omega⟩

theorem both_from {nI nA nV p : ℕ} (h : p ∈ rangeFrom nI nA) : Both (· < 2 * (nI + nA + nV)) p := by
  simp only [rangeFrom, List.mem_map, List.mem_range] at h
  obtain ⟨a, ha, rfl⟩ := h
  exact both_lt (by omega)

theorem both_range {nI nA nV p : ℕ} (h : p ∈ List.range nI) : Both (· < 2 * (nI + nA + nV)) p :=
  both_lt (by have := List.mem_range.1 h; omega)

theorem keys_one0 (h : ℕ → ℕ → K) (nI nA nV : ℕ) :
    RKeys (· < 2 * (nI + nA + nV)) (fun _ => 0) (oneElec0i0a tiny big h nI nA) :=
  (Keeps.seq (Keeps.foldlM _ fun _ hi => keeps_addEif _ (both_range hi) (both_range hi))
    (Keeps.foldlM _ fun _ hp => Keeps.foldlM _ fun _ hq => keeps_addEif _ (both_from hp) (both_from hq)))
    [] keys_nil

theorem keys_ham0 (h : ℕ → ℕ → K) (g : ℕ → ℕ → ℕ → ℕ → K) (nI nA nV : ℕ) :
    RKeys (· < 2 * (nI + nA + nV)) (fun _ => 0) (hamiltonian0i0a tiny big h g nI nA) :=
  (Keeps.seq (Keeps.foldlM _ fun _ hi => keeps_addEif _ (both_range hi) (both_range hi))
    (Keeps.seq (Keeps.foldlM _ fun _ hp => Keeps.foldlM _ fun _ hq =>
      keeps_addEif _ (both_from hp) (both_from hq))
    (Keeps.seq (Keeps.foldlM _ fun _ hi => Keeps.foldlM _ fun _ hj =>
      Keeps.seq (keeps_addEEif _ (both_range hi) (both_range hi) (both_range hj) (both_range hj))
        (Keeps.ite _ (keeps_addEE _ (both_range hj) (both_range hi) (both_range hi) (both_range hj))
          Keeps.pure))
    (Keeps.seq (Keeps.foldlM _ fun _ hi => Keeps.foldlM _ fun _ hp => Keeps.foldlM _ fun _ hq =>
      Keeps.seq (keeps_addEEif _ (both_range hi) (both_range hi) (both_from hp) (both_from hq))
      (Keeps.seq (keeps_addEEif _ (both_from hp) (both_from hq) (both_range hi) (both_range hi))
      (Keeps.seq (keeps_addEEif _ (both_from hp) (both_range hi) (both_range hi) (both_from hq))
        (keeps_addEEif _ (both_range hi) (both_from hp) (both_from hq) (both_range hi)))))
    (Keeps.foldlM _ fun _ hp => Keeps.foldlM _ fun _ hq => Keeps.foldlM _ fun _ hr =>
      Keeps.foldlM _ fun _ hs =>
        keeps_addEEif _ (both_from hp) (both_from hq) (both_from hr) (both_from hs))))))
    [] keys_nil

theorem keys_oneFull (h : ℕ → ℕ → K) (n : ℕ) :
    RKeys (· < 2 * n) (fun _ => 0) (oneElecFull tiny big h n) :=
  (Keeps.foldlM _ fun _ hp => Keeps.foldlM _ fun _ hq =>
    keeps_addEif _ (both_lt (List.mem_range.1 hp)) (both_lt (List.mem_range.1 hq))) [] keys_nil

theorem keys_hamFull (h : ℕ → ℕ → K) (g : ℕ → ℕ → ℕ → ℕ → K) (n : ℕ) :
    RKeys (· < 2 * n) (fun _ => 0) (hamiltonianFull tiny h g n) :=
  (Keeps.seq (Keeps.foldlM _ fun _ hp => Keeps.foldlM _ fun _ hq =>
      Keeps.ite _ Keeps.pure (keeps_addE _ (both_lt (List.mem_range.1 hp)) (both_lt (List.mem_range.1 hq))))
    (Keeps.foldlM _ fun _ hp => Keeps.foldlM _ fun _ hq => Keeps.foldlM _ fun _ hr =>
      Keeps.foldlM _ fun _ hs => Keeps.ite _ Keeps.pure
        (keeps_addEE _ (both_lt (List.mem_range.1 hp)) (both_lt (List.mem_range.1 hq))
          (both_lt (List.mem_range.1 hr)) (both_lt (List.mem_range.1 hs))))) [] keys_nil

end SQ
